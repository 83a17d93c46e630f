/-!
# Model of the on-chain activity statistics

Transcribes `/repo/transition/src/state/statistics.rs` (lines 17-180), the types and methods of
`/repo/state/src/types/statistics.rs`, `AssurancesXt` (`/repo/block/src/types/extrinsics/assurances.rs`
lines 29-57), `PreimagesXt::total_preimage_data_len` and `AccumulateStats`
(`/repo/pvm/pvm-types/src/stats.rs`).

Simplifications.
* Counters are machine words whose addition wraps, as in a release build (with overflow checks the node
  panics instead).
* Of a report, an assurance or a preimage only what the statistics read is kept; a preimage is its length.
* The state manager's reads and `Update` writes are a plain state (see the `StateCache` area).
* The active set always holds a key for each validator (it is a `FixedVec`), so the error
  `ValidatorIndexOutOfBounds` does not arise; keys are of any type `K`.
* A `BTreeMap` is a list of entries; a `HashMap` is a list in the order in which it happens to be iterated.
-/
namespace Fastroll.Stats

/-- `ValidatorStatsEntry`, statistics.rs lines 43-57. -/
structure ValEntry where
  blocks : UInt32 := 0
  tickets : UInt32 := 0
  preimages : UInt32 := 0
  octets : UInt32 := 0
  guarantees : UInt32 := 0
  assurances : UInt32 := 0
deriving DecidableEq, Repr

/-- `CoreStatsEntry`, statistics.rs lines 207-225. -/
structure CoreEntry where
  daSize : UInt32 := 0
  assurers : UInt16 := 0
  imports : UInt16 := 0
  xts : UInt16 := 0
  xtOctets : UInt32 := 0
  exports : UInt16 := 0
  bundle : UInt32 := 0
  gas : UInt64 := 0
deriving DecidableEq, Repr

/-- `ServiceStatsEntry`, statistics.rs lines 276-298. -/
structure SvcEntry where
  preimages : UInt16 := 0
  preimageOctets : UInt32 := 0
  digests : UInt32 := 0
  gas : UInt64 := 0
  imports : UInt32 := 0
  xts : UInt32 := 0
  xtOctets : UInt32 := 0
  exports : UInt32 := 0
  accDigests : UInt32 := 0
  accGas : UInt64 := 0
deriving DecidableEq, Repr

/-- `WorkDigest`: its service and its `RefineStats` (work_report.rs lines 274-285). -/
structure Digest where
  service : Nat
  gas : UInt64
  imports : UInt16
  xts : UInt16
  xtOctets : UInt32
  exports : UInt16
deriving DecidableEq, Repr

/-- `WorkReport`: core, bundle length and segment count of its specs, and digests. -/
structure Report where
  core : Nat
  bundleLen : UInt32
  segCount : UInt16
  digests : List Digest
deriving DecidableEq, Repr

/-- `AssurancesXtEntry`: validator index and bit vector. -/
structure Assurance where
  validator : Nat
  bits : List Bool
deriving DecidableEq, Repr

/-- `PreimagesXtEntry`: service and length of the data. -/
structure Preimage where
  service : Nat
  len : Nat
deriving DecidableEq, Repr

/-- What the transition is given for one block: whether it opens an epoch, the author, the number of tickets,
the other extrinsics, the reports that became available, the keys of the reporters, the keys of the active
validators (in order) and the accumulation statistics `(service, gas, digests)` as they are iterated. -/
structure Block (K : Type) where
  newEpoch : Bool
  author : Nat
  tickets : Nat
  preimages : List Preimage
  assurances : List Assurance
  guarantees : List Report
  available : List Report
  reporters : List K
  active : List K
  accStats : List (Nat × UInt64 × UInt32)

/-- `OnChainStatistics`, statistics.rs lines 24-31. -/
structure Stats where
  curr : List ValEntry
  prev : List ValEntry
  cores : List CoreEntry
  services : List (Nat × SvcEntry)
deriving DecidableEq, Repr

/-- `self.items[i]` for a mutable entry: `none` is the panic of an index out of bounds. -/
def modAt {α : Type} (l : List α) (i : Nat) (f : α → α) : Option (List α) :=
  match l, i with
  | [], _ => none
  | a :: l, 0 => some (f a :: l)
  | a :: l, i + 1 => (modAt l i f).map (a :: ·)

/-- `service_stats_entry_mut(id)` followed by an update: `BTreeMap::entry(id).or_default()`, keys ascending. -/
def upd (m : List (Nat × SvcEntry)) (id : Nat) (f : SvcEntry → SvcEntry) : List (Nat × SvcEntry) :=
  match m with
  | [] => [(id, f {})]
  | (k, e) :: m =>
    if id = k then (k, f e) :: m
    else if id < k then (id, f {}) :: (k, e) :: m
    else (k, e) :: upd m id f

/-- `handle_new_epoch_transition`, statistics.rs lines 50-67; `V` is `VALIDATOR_COUNT`. -/
def newEpoch (V : Nat) (s : Stats) : Stats :=
  { s with prev := s.curr, curr := List.replicate V {} }

/-- The author's entry, statistics.rs lines 85-95. -/
def authorEntry {K : Type} (b : Block K) (e : ValEntry) : ValEntry :=
  { e with
    blocks := e.blocks + 1
    tickets := e.tickets + UInt32.ofNat b.tickets
    preimages := e.preimages + UInt32.ofNat b.preimages.length
    octets := e.octets + UInt32.ofNat (b.preimages.map Preimage.len).sum }

/-- `contains_assurance_for_validator`, assurances.rs lines 30-33. -/
def assuredBy (as : List Assurance) (v : Nat) : Bool := as.any (fun a => a.validator == v)

/-- The body of the loop over validators, statistics.rs lines 103-115. -/
def validatorEntry {K : Type} [DecidableEq K] (b : Block K) (v : Nat) (key : K) (e : ValEntry) : ValEntry :=
  let e := if b.reporters.contains key then { e with guarantees := e.guarantees + 1 } else e
  if assuredBy b.assurances v then { e with assurances := e.assurances + 1 } else e

/-- The loop over validators zipped with their keys, statistics.rs lines 97-116, from index `v`. Entries
without a key are left alone. -/
def validatorLoop {K : Type} [DecidableEq K] (b : Block K) (v : Nat) (es : List ValEntry) (keys : List K) :
    List ValEntry :=
  match es, keys with
  | e :: es, k :: keys => validatorEntry b v k e :: validatorLoop b (v + 1) es keys
  | es, _ => es

/-- `accumulate_refine_stats` of a core, statistics.rs lines 243-250. -/
def coreDigest (e : CoreEntry) (d : Digest) : CoreEntry :=
  { e with
    imports := e.imports + d.imports
    xts := e.xts + d.xts
    xtOctets := e.xtOctets + d.xtOctets
    exports := e.exports + d.exports
    gas := e.gas + d.gas }

/-- One guaranteed report, transition/src/state/statistics.rs lines 134-140. -/
def coreGuarantee (r : Report) (e : CoreEntry) : CoreEntry :=
  r.digests.foldl coreDigest { e with bundle := e.bundle + r.bundleLen }

/-- `SEGMENT_SIZE as u32 * 65 * (segment_count as u32).div_ceil(64)` plus the bundle, lines 141-145. The
product cannot exceed `4104 * 65 * 1024 < 2^32`. -/
def daLoad (r : Report) : UInt32 :=
  r.bundleLen + 4104 * 65 * UInt32.ofNat ((r.segCount.toNat + 63) / 64)

/-- One available report, lines 141-145. -/
def coreAvailable (r : Report) (e : CoreEntry) : CoreEntry := { e with daSize := e.daSize + daLoad r }

/-- The reports of a list, each applied to the entry of its core. -/
def perCore (f : Report → CoreEntry → CoreEntry) : List Report → List CoreEntry → Option (List CoreEntry)
  | [], es => some es
  | r :: rs, es => (modAt es r.core (f r)).bind (perCore f rs)

/-- `counts[i] += (*assured) as usize` along one bit vector, assurances.rs lines 49-54; `none`: out of bounds. -/
def addBits : List Nat → List Bool → Option (List Nat)
  | ns, [] => some ns
  | [], _ :: _ => none
  | n :: ns, b :: bs => (addBits ns bs).map ((n + b.toNat) :: ·)

/-- `cores_assurances_counts`, assurances.rs lines 47-57; `C` is `CORE_COUNT`. -/
def assuranceCounts (C : Nat) (as : List Assurance) : Option (List Nat) :=
  as.foldl (fun ns a => ns.bind (addBits · a.bits)) (some (List.replicate C 0))

/-- `entry.assurers_count = *count as u16`, lines 146-149. -/
def setAssurers (es : List CoreEntry) (ns : List Nat) : List CoreEntry :=
  List.zipWith (fun e n => { e with assurers := UInt16.ofNat n }) es ns

/-- The statistics of the cores, lines 132-149. -/
def coreStats {K : Type} (C : Nat) (b : Block K) : Option (List CoreEntry) :=
  (perCore coreGuarantee b.guarantees (List.replicate C {})).bind fun es =>
  (perCore coreAvailable b.available es).bind fun es =>
  (assuranceCounts C b.assurances).map fun ns => setAssurers es ns

/-- `accumulate_refine_stats` of a service, statistics.rs lines 332-339. -/
def svcDigest (d : Digest) (e : SvcEntry) : SvcEntry :=
  { e with
    digests := e.digests + 1
    gas := e.gas + d.gas
    imports := e.imports + d.imports.toUInt32
    xts := e.xts + d.xts.toUInt32
    xtOctets := e.xtOctets + d.xtOctets
    exports := e.exports + d.exports.toUInt32 }

/-- `add_preimage_load`, statistics.rs lines 341-344. -/
def svcPreimage (p : Preimage) (e : SvcEntry) : SvcEntry :=
  { e with preimages := e.preimages + 1, preimageOctets := e.preimageOctets + UInt32.ofNat p.len }

/-- One entry of the accumulation statistics, transition/src/state/statistics.rs lines 165-169. -/
def svcAcc (gas : UInt64) (n : UInt32) (e : SvcEntry) : SvcEntry :=
  { e with accGas := e.accGas + gas, accDigests := e.accDigests + n }

/-- The statistics of the services, lines 151-169. -/
def svcStats {K : Type} (b : Block K) : List (Nat × SvcEntry) :=
  let m := (b.guarantees.flatMap Report.digests).foldl (fun m d => upd m d.service (svcDigest d)) []
  let m := b.preimages.foldl (fun m p => upd m p.service (svcPreimage p)) m
  b.accStats.foldl (fun m a => upd m a.1 (svcAcc a.2.1 a.2.2)) m

/-- `handle_validator_stats_accumulation`, lines 69-120. -/
def validatorStats {K : Type} [DecidableEq K] (b : Block K) (s : Stats) : Option Stats :=
  (modAt s.curr b.author (authorEntry b)).map fun es =>
    { s with curr := validatorLoop b 0 es b.active }

/-- `handle_per_block_transition`, lines 122-180. -/
def perBlock {K : Type} (C : Nat) (b : Block K) (s : Stats) : Option Stats :=
  (coreStats C b).map fun cs => { s with cores := cs, services := svcStats b }

/-- `transition_onchain_statistics`, lines 17-48. `none` is a panic. -/
def transition {K : Type} [DecidableEq K] (V C : Nat) (b : Block K) (s : Stats) : Option Stats :=
  let s := if b.newEpoch then newEpoch V s else s
  (validatorStats b s).bind (perBlock C b)

/-- The transitions of the blocks of a chain, in order. -/
def chain {K : Type} [DecidableEq K] (V C : Nat) : List (Block K) → Stats → Option Stats
  | [], s => some s
  | b :: bs, s => (transition V C b s).bind (chain V C bs)

/-- `OnChainStatistics::default()`. -/
def initial (V C : Nat) : Stats :=
  { curr := List.replicate V {}, prev := List.replicate V {}, cores := List.replicate C {}, services := [] }

/-- `map.entry(k).or_default() += x` of a `HashMap` being folded: a list with distinct keys. -/
def bump {α : Type} [Add α] (m : List (Nat × α)) (k : Nat) (x zero : α) : List (Nat × α) :=
  match m with
  | [] => [(k, zero + x)]
  | (j, y) :: m => if k = j then (j, y + x) :: m else (j, y) :: bump m k x zero

/-- `map.get(k).cloned().unwrap_or_default()`. -/
def getOr {α : Type} (m : List (Nat × α)) (k : Nat) (zero : α) : α :=
  match m with
  | [] => zero
  | (j, y) :: m => if k = j then y else getOr m k zero

/-- The digest counts of `from_accumulated_reports`, stats.rs lines 32-40. -/
def digestCounts (ds : List Digest) : List (Nat × Nat) :=
  ds.foldl (fun m d => bump m d.service 1 0) []

/-- The gas totals of `from_accumulated_reports`, stats.rs lines 41-46; `u64` addition. -/
def gasTotals (gs : List (Nat × UInt64)) : List (Nat × UInt64) :=
  gs.foldl (fun m p => bump m p.1 p.2 0) []

/-- The union of the keys of both maps (a `HashSet`), stats.rs lines 47-51. -/
def unionKeys (ks js : List Nat) : List Nat := ks ++ js.filter (fun j => !ks.contains j)

/-- `AccumulateStats::from_accumulated_reports`, stats.rs lines 28-77. -/
def fromAccumulated (reports : List Report) (gs : List (Nat × UInt64)) : List (Nat × UInt64 × UInt32) :=
  let cs := digestCounts (reports.flatMap Report.digests)
  let ts := gasTotals gs
  (unionKeys (cs.map Prod.fst) (ts.map Prod.fst)).filterMap fun k =>
    let gas := getOr ts k 0
    let n := UInt32.ofNat (getOr cs k 0)
    if gas > 0 || n > 0 then some (k, gas, n) else none

end Fastroll.Stats
