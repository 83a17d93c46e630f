import Verif.Trie.NodeModel
/-
Model of the incremental state trie: `state/src/merkle_interface/manager.rs`,
`state/state-merkle-v2/src/{merkle_db,merkle_change_set,utils}.rs` and the commit functions of
`state/src/manager.rs` 742-869.

Paths and state keys are bit lists (a state key is its 248 bits; the bytes are recovered by `unbits`).
The column families are lists of key-value pairs; the one that is scanned in key order (`nodes`) is kept
in key order by `put`.  The write-through caches in front of the column families are coherent (C31) and
not repeated here.  Database errors are not modelled.  `ord` is the iteration order of a `HashSet`.
-/
namespace Fastroll.Trie

abbrev Path := List Bool
abbrev Bytes := List UInt8

/-- Order of the database keys of two paths (strings of `0` and `1`, `DBKey for MerklePath`,
state-merkle-v2/src/types.rs 344-348): lexicographic, a prefix first. -/
def pathLt : Path → Path → Bool
  | [], [] => false
  | [], _ :: _ => true
  | _ :: _, [] => false
  | a :: p, b :: q => if a = b then pathLt p q else !a

/-- Lookup in a map. -/
def get {α : Type} : List (Path × α) → Path → Option α
  | [], _ => none
  | (k', v) :: m, k => if k = k' then some v else get m k

/-- Put into a column family kept in key order. -/
def put {α : Type} : List (Path × α) → Path → α → List (Path × α)
  | [], k, v => [(k, v)]
  | (k', v') :: m, k, v =>
    if k = k' then (k, v) :: m
    else if pathLt k k' then (k, v) :: (k', v') :: m
    else (k', v') :: put m k v

/-- Delete from a column family. -/
def del {α : Type} (m : List (Path × α)) (k : Path) : List (Path × α) := m.filter fun e => e.1 ≠ k

/-- One write of a write set (`append_write_entries_to_write_batch`,
state-merkle-v2/src/merkle_change_set.rs 31-45). -/
def write {α : Type} (m : List (Path × α)) (w : Path × Option α) : List (Path × α) :=
  match w.2 with
  | some v => put m w.1 v
  | none => del m w.1

/-- Insert into a `HashMap`. -/
def hmPut {α : Type} (m : List (Path × α)) (k : Path) (v : α) : List (Path × α) :=
  (k, v) :: m.filter fun e => e.1 ≠ k

/-- The number of bits of a state key (31 bytes). -/
def keyBits : Nat := 248

/-- `NodeHash::default()`. -/
def zeroHash : Bytes := List.replicate 32 0

/-- `MerkleChangeSet`, state-merkle-v2/src/merkle_change_set.rs 70-79. -/
structure ChangeSet where
  nodes : List (Path × Option Node)
  leafPaths : List (Path × Option Path)
  affected : List Path
  stateWrites : List (Bytes × Bytes)
  nodeWrites : List (Path × Option Node)
  deriving DecidableEq, Repr

/-- An empty change set (`clear`, merkle_change_set.rs 122-129). -/
def ChangeSet.empty : ChangeSet := ⟨[], [], [], [], []⟩

/-- `insert_node`, merkle_change_set.rs 88-95. -/
def ChangeSet.setNode (cs : ChangeSet) (p : Path) (w : Option Node) : ChangeSet :=
  { cs with nodes := hmPut cs.nodes p w }

/-- `insert_leaf_path`, merkle_change_set.rs 102-109. -/
def ChangeSet.setLeaf (cs : ChangeSet) (k : Path) (w : Option Path) : ChangeSet :=
  { cs with leafPaths := hmPut cs.leafPaths k w }

/-- `insert_state_db_write`, merkle_change_set.rs 131-133, when there is one. -/
def ChangeSet.pushState (cs : ChangeSet) (w : Option (Bytes × Bytes)) : ChangeSet :=
  { cs with stateWrites := cs.stateWrites ++ w.toList }

/-- `all_paths_to_root`, state-merkle-v2/src/types.rs 436-448: the path and all its prefixes, longest
first. -/
def allPaths : Path → List Path
  | [] => [[]]
  | b :: p => (allPaths p).map (b :: ·) ++ [[]]

/-- `extend_affected_paths`, merkle_change_set.rs 111-116. -/
def ChangeSet.affect (cs : ChangeSet) (p : Path) : ChangeSet :=
  { cs with affected := allPaths p ++ cs.affected }

/-- `insert_to_affected_paths`, merkle_change_set.rs 118-120. -/
def ChangeSet.affectOne (cs : ChangeSet) (p : Path) : ChangeSet := { cs with affected := p :: cs.affected }

/-- `MerkleDB`, state-merkle-v2/src/merkle_db.rs; the root is only kept in memory (34, 93-99). -/
structure Db where
  nodes : List (Path × Node)
  leafPaths : List (Path × Path)
  root : Bytes
  deriving DecidableEq, Repr

/-- The errors of the trie, and panics. -/
inductive Err
  | notInitialized | pathUnknown | branchStructure | leafNotFound | affectedPath | missingRoot | removingRoot
  | keySize | panic
  deriving DecidableEq, Repr

/-- The hash function and the iteration order of hash sets. -/
structure Env where
  H : Bytes → Bytes
  ord : List Path → List Path

/-- The scan of `MerkleDB::find_longest_prefix`, merkle_db.rs 73-86. -/
def scan (key : Path) : Path → List (Path × Node) → Path
  | longest, [] => longest
  | longest, (c, _) :: m =>
    if pathLt key c then longest
    else scan key (if c.isPrefixOf key then c else longest) m

/-- `MerkleDB::find_longest_prefix`, merkle_db.rs 46-91. -/
def dbLongest (db : Db) (key : Path) : Path :=
  scan key [] (db.nodes.dropWhile fun e => pathLt e.1 (key.take 1))

/-- `get_node`, manager.rs 131-147. -/
def getNode (db : Db) (cs : ChangeSet) (p : Path) : Option Node :=
  match get cs.nodes p with
  | some w => w
  | none => get db.nodes p

/-- `get_leaf_path`, manager.rs 149-165. -/
def getLeafPath (db : Db) (cs : ChangeSet) (k : Path) : Option Path :=
  match get cs.leafPaths k with
  | some w => w
  | none => get db.leafPaths k

/-- One candidate of `find_longest_prefix`, manager.rs 109-126. -/
def pickLonger (cs : ChangeSet) (lcp c : Path) : Path :=
  if c.length > lcp.length then
    match get cs.nodes c with
    | some none => lcp
    | _ => c
  else lcp

/-- The candidates of `find_longest_prefix`, manager.rs 89-105. -/
def candidates (env : Env) (db : Db) (cs : ChangeSet) (key : Path) : List Path :=
  env.ord (allPaths (dbLongest db key) ++ (cs.nodes.map (·.1)).filter fun c => c.isPrefixOf key).eraseDups

/-- `find_longest_prefix`, manager.rs 83-129. -/
def longestPrefix (env : Env) (db : Db) (cs : ChangeSet) (key : Path) : Path :=
  (candidates env db cs key).foldl (pickLonger cs) []

/-- `get_longest_common_path_node`, manager.rs 167-182. -/
def lcpNode (env : Env) (db : Db) (cs : ChangeSet) (key : Path) : Except Err (Option Node × Path) :=
  let q := longestPrefix env db cs key
  match getNode db cs q with
  | some n => .ok (some n, q)
  | none => if q = [] then .ok (none, q) else .error .notInitialized

/-- The write to the state database of a value (`cache_entry_to_leaf_node_and_state_db_write_set`,
manager.rs 184-204): only values that do not fit into the leaf. -/
def stateWrite (H : Bytes → Bytes) (v : Bytes) : Option (Bytes × Bytes) :=
  if v.length > 32 then some (H v, v) else none

/-- `MerklePath::sibling`, state-merkle-v2/src/types.rs 405-416. -/
def sibling (p : Path) : Option Path :=
  match p.getLast? with
  | none => none
  | some b => some (p.dropLast ++ [!b])

/-- The number of leading bits two keys have in common (`xnor.leading_ones()`,
state-merkle-v2/src/utils.rs 42-43). -/
def commonLen : Path → Path → Nat
  | a :: p, b :: q => if a = b then commonLen p q + 1 else 0
  | _, _ => 0

/-- `derive_final_leaf_paths`, state-merkle-v2/src/utils.rs 36-47; the slices panic when the keys are
equal. -/
def finalPaths (a b : Path) : Except Err (Path × Path) :=
  let c := commonLen a b
  if c + 1 ≤ a.length ∧ c + 1 ≤ b.length then .ok (a.take (c + 1), b.take (c + 1)) else .error .panic

/-- The hash of the node at a path, zero when there is none (manager.rs 319-324). -/
def nodeHashOr (H : Bytes → Bytes) : Option Node → Bytes
  | some n => n.hash H
  | none => zeroHash

/-- The loop that adds the branches above two split leaves, manager.rs 299-337; `fuel` bounds the
number of rounds by the length of the path plus one. -/
def addBranches (H : Bytes → Bytes) (db : Db) (lcpLen : Nat) : Nat → ChangeSet → Path → Bytes → Bytes → ChangeSet
  | 0, cs, _, _, _ => cs
  | fuel + 1, cs, bp, l, r =>
    if bp.length < lcpLen then cs
    else
      let n := Node.branch (Branch.make l r)
      let cs := cs.setNode bp (some n)
      match bp.getLast? with
      | none => cs
      | some side =>
        let sh := nodeHashOr H (getNode db cs (bp.dropLast ++ [!side]))
        if side then addBranches H db lcpLen fuel cs bp.dropLast sh (n.hash H)
        else addBranches H db lcpLen fuel cs bp.dropLast (n.hash H) sh

/-- Add case 1, manager.rs 223-250. -/
def addBelowBranch (env : Env) (cs : ChangeSet) (key : Path) (v : Bytes) (q : Path) : Except Err ChangeSet :=
  if q.length + 1 ≤ key.length then
    let lp := key.take (q.length + 1)
    .ok ((((cs.affect lp).setNode lp (some (.leaf (mkLeaf env.H key v)))).setLeaf key (some lp)).pushState
      (stateWrite env.H v))
  else .error .panic

/-- Add case 2, manager.rs 251-353. -/
def splitLeaf (env : Env) (db : Db) (cs : ChangeSet) (key : Path) (v : Bytes) (q : Path) (sib : Leaf) :
    Except Err ChangeSet :=
  match finalPaths sib.key key with
  | .error e => .error e
  | .ok (sp, lp) =>
    let cs := (cs.affect lp).affectOne sp
    let nl := Node.leaf (mkLeaf env.H key v)
    let ns := Node.leaf sib
    let cs := (cs.setNode lp (some nl)).setNode sp (some ns)
    match lp.getLast? with
    | none => .error .branchStructure
    | some side =>
      let bp := lp.dropLast
      let cs := if side then addBranches env.H db q.length (bp.length + 1) cs bp (ns.hash env.H) (nl.hash env.H)
        else addBranches env.H db q.length (bp.length + 1) cs bp (nl.hash env.H) (ns.hash env.H)
      let cs := cs.setLeaf key (some lp)
      if sib.key.length = keyBits then
        .ok ((cs.setLeaf sib.key (some sp)).pushState (stateWrite env.H v))
      else .error .keySize

/-- Add case 3, manager.rs 354-371. -/
def addFirst (env : Env) (cs : ChangeSet) (key : Path) (v : Bytes) : ChangeSet :=
  (((cs.affect []).setNode [] (some (.leaf (mkLeaf env.H key v)))).setLeaf key (some [])).pushState
    (stateWrite env.H v)

/-- `StateMut::Add`, manager.rs 217-373. -/
def addEntry (env : Env) (db : Db) (cs : ChangeSet) (key : Path) (v : Bytes) : Except Err ChangeSet :=
  match lcpNode env db cs key with
  | .error e => .error e
  | .ok (some (.branch _), q) => addBelowBranch env cs key v q
  | .ok (some (.leaf sib), q) => splitLeaf env db cs key v q sib
  | .ok (none, _) => .ok (addFirst env cs key v)

/-- `StateMut::Update`, manager.rs 374-393. -/
def updateEntry (env : Env) (db : Db) (cs : ChangeSet) (key : Path) (v : Bytes) : Except Err ChangeSet :=
  match getLeafPath db cs key with
  | none => .error .pathUnknown
  | some lp =>
    .ok (((cs.affect lp).setNode lp (some (.leaf (mkLeaf env.H key v)))).pushState (stateWrite env.H v))

/-- Whether exactly one child of a branch exists, manager.rs 445-452. -/
def singleChild (db : Db) (cs : ChangeSet) (p : Path) : Bool :=
  xor (getNode db cs (p ++ [false])).isNone (getNode db cs (p ++ [true])).isNone

/-- The loop that promotes the remaining leaf, manager.rs 423-469: the final path and the collapsed
branches; `fuel` bounds the number of rounds by the length of the path. -/
def promote (db : Db) (cs : ChangeSet) : Nat → Path → List Path → Except Err (Path × List Path)
  | 0, p, acc => .ok (p, acc)
  | fuel + 1, p, acc =>
    if p = [] then .ok (p, acc)
    else match getNode db cs p.dropLast with
      | some (.branch _) =>
        if singleChild db cs p.dropLast then promote db cs fuel p.dropLast (acc ++ [p]) else .ok (p, acc)
      | _ => .error .branchStructure

/-- Remove case 2, manager.rs 419-500. -/
def removeBesideLeaf (db : Db) (cs : ChangeSet) (key : Path) (lp sp : Path) (sib : Leaf) : Except Err ChangeSet :=
  match promote db cs sp.length sp.dropLast [] with
  | .error e => .error e
  | .ok (post, collapsed) =>
    let cs := ((cs.affect lp).setNode lp none).setLeaf key none
    let cs := (cs.affectOne sp).setNode sp none
    if sib.key.length = keyBits then
      let cs := cs.setLeaf sib.key (some post)
      let cs := collapsed.foldl (fun cs p => cs.setNode p none) cs
      .ok (cs.setNode post (some (.leaf sib)))
    else .error .keySize

/-- Remove case 1, manager.rs 409-418. -/
def removeBesideBranch (cs : ChangeSet) (key : Path) (lp : Path) : ChangeSet :=
  ((cs.affect lp).setNode lp none).setLeaf key none

/-- `StateMut::Remove`, manager.rs 394-502. -/
def removeEntry (db : Db) (cs : ChangeSet) (key : Path) : Except Err ChangeSet :=
  match getLeafPath db cs key with
  | none => .error .pathUnknown
  | some lp =>
    match sibling lp with
    | none => .error .notInitialized
    | some sp =>
      match getNode db cs sp with
      | none => .error .notInitialized
      | some (.branch _) => .ok (removeBesideBranch cs key lp)
      | some (.leaf sib) => removeBesideLeaf db cs key lp sp sib

/-- `StateMut`, state/src/cache.rs. -/
inductive Kind
  | add | update | remove
  deriving DecidableEq, Repr

/-- A dirty cache entry: state key, kind of mutation, encoded value. -/
structure Entry where
  key : Path
  kind : Kind
  value : Bytes
  deriving DecidableEq, Repr

/-- `insert_dirty_cache_entry_as_leaf_writes`, manager.rs 210-506. -/
def insertEntry (env : Env) (db : Db) (cs : ChangeSet) (e : Entry) : Except Err ChangeSet :=
  match e.kind with
  | .add => addEntry env db cs e.key e.value
  | .update => updateEntry env db cs e.key e.value
  | .remove => removeEntry db cs e.key

/-- `insert_dirty_cache_entries_as_leaf_writes`, manager.rs 508-517, with the change set the call leaves
behind.  (The errors of a single entry arise before it has changed anything, except `keySize`, which no
31-byte key meets.) -/
def insertEntries (env : Env) (db : Db) : ChangeSet → List Entry → Except Err Unit × ChangeSet
  | cs, [] => (.ok (), cs)
  | cs, e :: es =>
    match insertEntry env db cs e with
    | .error x => (.error x, cs)
    | .ok cs' => insertEntries env db cs' es

/-- The comparison of `affected_paths_as_sorted_vec`, merkle_change_set.rs 144-160, of two paths of equal
length given from the last bit backwards: the one with the greater last bit first. -/
def revBefore : Path → Path → Bool
  | a :: p, b :: q => if a = b then revBefore p q else a
  | _, _ => true

/-- Whether `a` comes before (or equal) `b` in `affected_paths_as_sorted_vec`. -/
def deeper (a b : Path) : Bool :=
  if a.length = b.length then revBefore a.reverse b.reverse else decide (b.length < a.length)

/-- Insertion into a sorted list. -/
def insertPath (p : Path) : List Path → List Path
  | [] => [p]
  | q :: ps => if deeper p q then p :: q :: ps else q :: insertPath p ps

/-- `affected_paths_as_sorted_vec`, merkle_change_set.rs 141-162. -/
def sortedAffected (env : Env) (cs : ChangeSet) : List Path :=
  (env.ord cs.affected.eraseDups).foldr insertPath []

/-- The left child's part of the recomputation of a branch, manager.rs 566-578. -/
def refreshLeft (H : Bytes → Bytes) (cs : ChangeSet) (p : Path) (b : Branch) : Branch :=
  match get cs.nodes (p ++ [false]) with
  | some w => b.updateLeft (nodeHashOr H w)
  | none => b

/-- The right child's part, manager.rs 579-591. -/
def refreshRight (H : Bytes → Bytes) (cs : ChangeSet) (p : Path) (b : Branch) : Branch :=
  match get cs.nodes (p ++ [true]) with
  | some w => b.updateRight (nodeHashOr H w)
  | none => b

/-- `insert_merkle_db_nodes_write`, merkle_change_set.rs 135-139. -/
def ChangeSet.pushNode (cs : ChangeSet) (p : Path) (w : Option Node) : ChangeSet :=
  { cs with nodeWrites := cs.nodeWrites ++ [(p, w)] }

/-- The recomputation of an affected branch, manager.rs 549-610. -/
def rebuildBranch (H : Bytes → Bytes) (db : Db) (cs : ChangeSet) (p : Path) : Except Err ChangeSet :=
  match getNode db cs p with
  | some (.branch b) =>
    if p.length ≥ nodeSizeBits then .error .branchStructure
    else
      let n := Node.branch (refreshRight H cs p (refreshLeft H cs p b))
      .ok ((cs.setNode p (some n)).pushNode p (some n))
  | some (.leaf _) => .error .leafNotFound
  | none => .error .affectedPath

/-- One round of `prepare_merkle_db_node_writes`, manager.rs 534-611. -/
def processPath (H : Bytes → Bytes) (db : Db) (cs : ChangeSet) (p : Path) : Except Err ChangeSet :=
  match get cs.nodes p with
  | some none => .ok (cs.pushNode p none)
  | some (some (.leaf l)) => .ok (cs.pushNode p (some (.leaf l)))
  | some (some (.branch _)) => rebuildBranch H db cs p
  | none => rebuildBranch H db cs p

/-- The loop of `prepare_merkle_db_node_writes`, manager.rs 532-611, with the change set left behind. -/
def processPaths (H : Bytes → Bytes) (db : Db) : ChangeSet → List Path → Except Err Unit × ChangeSet
  | cs, [] => (.ok (), cs)
  | cs, p :: ps =>
    match processPath H db cs p with
    | .error x => (.error x, cs)
    | .ok cs' => processPaths H db cs' ps

/-- `DBWriteSetWithRoot`, manager.rs 18-24. -/
structure Prepared where
  root : Bytes
  nodeWrites : List (Path × Option Node)
  leafWrites : List (Path × Option Path)
  stateWrites : List (Bytes × Bytes)
  deriving DecidableEq, Repr

/-- The new root, manager.rs 613-619. -/
def newRoot (H : Bytes → Bytes) (cs : ChangeSet) : Except Err Bytes :=
  match get cs.nodes [] with
  | none => .error .missingRoot
  | some none => .error .removingRoot
  | some (some n) => .ok (n.hash H)

/-- `prepare_merkle_db_node_writes` after the affected paths were taken, and the rest of
`prepare_dirty_cache_commit`, manager.rs 526-621, 702-734. -/
def finish (env : Env) (db : Db) (cs : ChangeSet) : Except Err (Option Prepared) × ChangeSet :=
  let ps := sortedAffected env cs
  if ps = [] then (.ok none, .empty)
  else
    match processPaths env.H db { cs with affected := [] } ps with
    | (.error x, cs) => (.error x, cs)
    | (.ok (), cs) =>
      match newRoot env.H cs with
      | .error x => (.error x, cs)
      | .ok r => (.ok (some ⟨r, cs.nodeWrites, cs.leafPaths, cs.stateWrites⟩), .empty)

/-- `prepare_dirty_cache_commit`, manager.rs 691-735, with the change set left behind: it is cleared on
success only. -/
def prepare (env : Env) (db : Db) (cs : ChangeSet) (es : List Entry) : Except Err (Option Prepared) × ChangeSet :=
  if es = [] then (.ok none, cs)
  else
    match insertEntries env db cs es with
    | (.error x, cs) => (.error x, cs)
    | (.ok (), cs) => finish env db cs

/-- `apply_dirty_cache_commit`, manager.rs 737-757. -/
def applyPrepared (db : Db) (p : Prepared) : Db :=
  { nodes := p.nodeWrites.foldl write db.nodes
    leafPaths := p.leafWrites.foldl write db.leafPaths
    root := p.root }

/-- The trie manager, the state database (hash → value) and the prepared commits of staged blocks. -/
structure Sys where
  db : Db
  cs : ChangeSet
  stateDb : List (Bytes × Bytes)
  staged : List (Option Prepared)
  deriving DecidableEq, Repr

/-- Empty databases (`MerkleDB::new`, merkle_db.rs 24-36). -/
def Sys.init : Sys := ⟨⟨[], [], zeroHash⟩, .empty, [], []⟩

/-- Lookup in the state database. -/
def stateGet : List (Bytes × Bytes) → Bytes → Option Bytes
  | [], _ => none
  | (h', v) :: m, h => if h = h' then some v else stateGet m h

/-- Application of a prepared commit to both databases, state/src/manager.rs 800-835. -/
def Sys.applyCommit (s : Sys) (p : Option Prepared) : Sys :=
  match p with
  | none => s
  | some p => { s with db := applyPrepared s.db p, stateDb := p.stateWrites.reverse ++ s.stateDb }

/-- Operations: an immediate commit of dirty entries (`commit_dirty_cache`, state/src/manager.rs 837-869),
a prepared commit kept for a staged block (`prepare_dirty_cache_commit`, 770-798), and the finalization of
a staged block, after which the others are dropped. -/
inductive Op
  | commit (es : List Entry)
  | stage (es : List Entry)
  | finalize (i : Nat)
  deriving DecidableEq, Repr

/-- One operation: its result and the system after it. -/
def step (env : Env) (s : Sys) : Op → Except Err Unit × Sys
  | .commit es =>
    match prepare env s.db s.cs es with
    | (.error x, cs) => (.error x, { s with cs := cs })
    | (.ok p, cs) => (.ok (), { s with cs := cs }.applyCommit p)
  | .stage es =>
    match prepare env s.db s.cs es with
    | (.error x, cs) => (.error x, { s with cs := cs })
    | (.ok p, cs) => (.ok (), { s with cs := cs, staged := s.staged ++ [p] })
  | .finalize i =>
    match s.staged[i]? with
    | none => (.ok (), s)
    | some p => (.ok (), { s.applyCommit p with staged := [] })

/-- A history of operations: the results and the final system. -/
def run (env : Env) : Sys → List Op → List (Except Err Unit) × Sys
  | s, [] => ([], s)
  | s, o :: os => ((step env s o).1 :: (run env (step env s o).2 os).1, (run env (step env s o).2 os).2)

/-- The process ends and the databases are opened again: the root is not stored, so it starts from zero
(`MerkleDB::new`, merkle_db.rs 24-36; nothing but `apply_dirty_cache_commit` calls `update_root`). -/
def Sys.reopen (s : Sys) : Sys := { s with db := { s.db with root := zeroHash }, cs := .empty, staged := [] }

/-- The process ends between the two writes of `apply_dirty_cache_commit` (state/src/manager.rs 818-826): the
trie is written, the state database is not. -/
def Sys.torn (before after : Sys) : Sys := { after with stateDb := before.stateDb }

/-- `MerkleDB::get_leaf`, merkle_db.rs 115-125. -/
def getLeaf (db : Db) (k : Path) : Option Leaf :=
  match get db.leafPaths k with
  | none => none
  | some p =>
    match get db.nodes p with
    | some (.leaf l) => some l
    | _ => none

/-- What `retrieve_state_encoded` returns, state/src/manager.rs 742-768. -/
inductive Retrieved
  | absent | missing | value (v : Bytes)
  deriving DecidableEq, Repr

/-- `retrieve_state_encoded`, state/src/manager.rs 742-768. -/
def retrieve (s : Sys) (k : Path) : Retrieved :=
  match getLeaf s.db k with
  | none => .absent
  | some l =>
    match l.data with
    | .embedded v => .value v
    | .regular h =>
      match stateGet s.stateDb h with
      | none => .missing
      | some v => .value v

end Fastroll.Trie
