/-!
# Model of service accounts and of the accumulation sandbox

Transcribes `/repo/state/src/types/services.rs` lines 20-348 (account metadata, footprints,
threshold) and `/repo/pvm/pvm-host/src/context/partial_state.rs` lines 39-1081 (the copy of the
accounts that accumulation reads and writes).

Simplifications.
* `u32`/`u64` fields are naturals; every operation that can leave the range says how it wraps,
  saturates or fails.
* Hash maps inside one account are functions from keys. The map of accounts is an association
  list, because the merge of parallel results iterates over it.
* The three maps of an account (storage, preimages, lookups) are handled in the code by three
  copies of the same functions; here by one.
* The `Ext` wrappers of storage and lookup entries carry the key's length, which is always the
  length of the key they are stored under (services.rs lines 449-454, 582-587); it is taken from
  the key.
* The provider of the global state never fails (database errors are not modelled).
* The constant `version` field is dropped.
-/
namespace Fastroll.Svc

abbrev Bytes := List UInt8
/-- `LookupsKey`: hash and length of a requested preimage. -/
abbrev LKey := Bytes × Nat

/-- `AccountMetadata`, services.rs lines 113-137. -/
structure Meta where
  codeHash : Bytes
  balance : Nat
  gasAcc : Nat := 0
  gasXfer : Nat := 0
  octets : Nat := 0
  gratis : Nat := 0
  items : Nat := 0
  created : Nat := 0
  lastAcc : Nat := 0
  parent : Nat := 0
deriving DecidableEq, Repr

def U64 : Nat := 2 ^ 64
def U32 : Nat := 2 ^ 32

/-- `threshold_balance`, services.rs lines 238-243. The sum is `u64` (wrapping without overflow
checks), the subtraction saturates. -/
def Meta.threshold (m : Meta) : Nat := (100 + 10 * m.items + 1 * m.octets) % U64 - m.gratis

/-- `get_initial_threshold_balance`, services.rs lines 298-306. -/
def initialThreshold (len gratis : Nat) : Nat := (100 + 10 * 2 + 1 * (len + 81)) % U64 - gratis

/-- `StorageUsageDelta`, services.rs lines 17-34. -/
structure Delta where
  items : Int := 0
  octets : Int := 0
deriving DecidableEq, Repr

def Delta.isZero (d : Delta) : Bool := d.items = 0 ∧ d.octets = 0

/-- `calculate_storage_usage_delta` (with `unwrap_or_default` applied by every caller),
services.rs lines 247-278, on the octets used before and after. -/
def usageDelta : Option Nat → Option Nat → Delta
  | some prev, none => { items := -1, octets := -(prev : Int) }
  | some prev, some new => { items := 0, octets := (new : Int) - prev }
  | none, none => {}
  | none, some new => { items := 1, octets := new }

/-- `apply_items_footprint_delta` / `apply_octets_footprint_delta`, services.rs lines 308-322:
saturating at zero and at the maximum of the type. -/
def applyDelta (max footprint : Nat) (d : Int) : Nat :=
  if d < 0 then footprint - d.natAbs else min (footprint + d.natAbs) (max - 1)

/-- `update_footprints` on `AccountFootprintDelta::from`, services.rs lines 60-75, 326-348: the
metadata and whether it was touched. -/
def Meta.updateFootprints (m : Meta) (st lk : Delta) : Meta × Bool :=
  let si := st.items
  let so := 34 * st.items + st.octets
  let li := 2 * lk.items
  let lo := 81 * lk.items + lk.octets
  if si ≠ 0 ∨ so ≠ 0 ∨ li ≠ 0 ∨ lo ≠ 0 then
    ({ m with
        items := applyDelta U32 (applyDelta U32 m.items si) li,
        octets := applyDelta U64 (applyDelta U64 m.octets so) lo }, true)
  else (m, false)

/-- `simulate_threshold_balance_after_mutation`, services.rs lines 283-296. -/
def Meta.simulate (m : Meta) (st lk : Delta) : Nat := (m.updateFootprints st lk).1.threshold

/-- `storage_octets_usage`, services.rs lines 440-444. -/
def storOctets (k v : Bytes) : Nat := k.length + v.length

/-! ## Sandbox entries -/

/-- `SandboxEntryStatus`, partial_state.rs lines 39-50. -/
inductive Status where
  | clean | added | updated | removed
deriving DecidableEq, Repr

/-- `SandboxEntryVersioned`, partial_state.rs lines 55-62, 91-98. -/
structure Entry (α : Type) where
  value : Option α
  status : Status
  snap : Option α
deriving DecidableEq, Repr

/-- `from_clean`, lines 104-112. -/
def Entry.fromClean {α : Type} (v : α) : Entry α := { value := some v, status := .clean, snap := none }
/-- `new_added`, lines 135-140. -/
def Entry.newAdded {α : Type} (v : α) : Entry α := { value := some v, status := .added, snap := none }
/-- `new_updated`, lines 142-147. -/
def Entry.newUpdated {α : Type} (v clean : α) : Entry α :=
  { value := some v, status := .updated, snap := some clean }
/-- `new_removed`, lines 149-154. -/
def Entry.newRemoved {α : Type} (clean : α) : Entry α :=
  { value := none, status := .removed, snap := some clean }
/-- `mark_updated`, lines 156-163: no snapshot is taken. -/
def Entry.markUpdated {α : Type} (e : Entry α) : Entry α :=
  if e.status = .added ∨ e.status = .updated then e else { e with status := .updated }

/-- A map updated at one key. -/
def upd {κ α : Type} [DecidableEq κ] (f : κ → Option α) (k : κ) (v : Option α) : κ → Option α :=
  fun k' => if k' = k then v else f k'

/-- `get_or_load_sandboxed_entry`, lines 498-526: the entry, and the map that caches what was
loaded from the global state `g`. -/
def loadEntry {κ α : Type} [DecidableEq κ] (m : κ → Option (Entry α)) (g : κ → Option α) (k : κ) :
    Option (Entry α) × (κ → Option (Entry α)) :=
  match m k with
  | some e => (some e, m)
  | none =>
    match g k with
    | some v => (some (.fromClean v), upd m k (some (.fromClean v)))
    | none => (none, m)

/-- `get_account_*_entry`, lines 528-539, 668-679, 806-817. -/
def getEntry {κ α : Type} [DecidableEq κ] (m : κ → Option (Entry α)) (g : κ → Option α) (k : κ) :
    Option α × (κ → Option (Entry α)) :=
  match loadEntry m g k with
  | (some e, m) => (e.value, m)
  | (none, m) => (none, m)

/-- `get_account_*_entry_clean`, lines 561-580, 700-719, 840-859. -/
def getClean {κ α : Type} [DecidableEq κ] (m : κ → Option (Entry α)) (g : κ → Option α) (k : κ) :
    Option α × (κ → Option (Entry α)) :=
  match loadEntry m g k with
  | (some e, m) => (if e.status = .clean then e.value else e.snap, m)
  | (none, m) => (none, m)

/-- `insert_account_*_entry`, lines 583-609, 722-748, 862-888 (the replaced value is ignored by
every caller). -/
def insertEntry {κ α : Type} [DecidableEq κ] (m : κ → Option (Entry α)) (g : κ → Option α) (k : κ)
    (v : α) : κ → Option (Entry α) :=
  match getClean m g k with
  | (some c, m) => upd m k (some (.newUpdated v c))
  | (none, m) => upd m k (some (.newAdded v))

/-- `remove_account_*_entry`, lines 613-666, 752-804, 892-947. -/
def removeEntry {κ α : Type} [DecidableEq κ] (m : κ → Option (Entry α)) (g : κ → Option α) (k : κ) :
    κ → Option (Entry α) :=
  match getEntry m g k with
  | (none, m) => m
  | (some _, m) =>
    match getClean m g k with
    | (some c, m) => upd m k (some (.newRemoved c))
    | (none, m) => upd m k none

/-! ## Accounts -/

/-- What `HostStateProvider` answers about accounts: the global state. -/
structure Global where
  metas : Nat → Option Meta
  storage : Nat → Bytes → Option Bytes
  preimages : Nat → Bytes → Option Bytes
  lookups : Nat → LKey → Option (List Nat)

/-- `AccountSandbox`, lines 181-187. -/
structure Box where
  info : Entry Meta
  storage : Bytes → Option (Entry Bytes)
  preimages : Bytes → Option (Entry Bytes)
  lookups : LKey → Option (Entry (List Nat))

/-- `AccountsSandboxMap`, lines 226-229. -/
abbrev Boxes := List (Nat × Box)

def boxGet : Boxes → Nat → Option Box
  | [], _ => none
  | (k, b) :: bs, s => if k = s then some b else boxGet bs s

def boxSet : Boxes → Nat → Box → Boxes
  | [], s, b => [(s, b)]
  | (k, b') :: bs, s, b => if k = s then (s, b) :: bs else (k, b') :: boxSet bs s b

def boxErase : Boxes → Nat → Boxes
  | [], _ => []
  | (k, b) :: bs, s => if k = s then boxErase bs s else (k, b) :: boxErase bs s

/-- `AccountSandbox::from_service_id`, lines 202-219. -/
def Box.fromClean (m : Meta) : Box :=
  { info := .fromClean m, storage := fun _ => none, preimages := fun _ => none, lookups := fun _ => none }

/-- `ensure_account_sandbox_initialized`, lines 263-275. -/
def ensure (g : Global) (bs : Boxes) (s : Nat) : Boxes :=
  match boxGet bs s with
  | some _ => bs
  | none =>
    match g.metas s with
    | some m => boxSet bs s (.fromClean m)
    | none => bs

/-- `account_exists_effective`, lines 297-314. -/
def existsEffective (g : Global) (bs : Boxes) (s : Nat) : Bool :=
  match boxGet bs s with
  | some b => b.info.status ≠ .removed
  | none => (g.metas s).isSome

/-- `account_exists_active`, lines 319-340. -/
def existsActive (g : Global) (bs : Boxes) (s : Nat) : Bool × Boxes :=
  let bs := ensure g bs s
  match boxGet bs s with
  | some b => (b.info.status ≠ .removed, bs)
  | none => (false, bs)

/-- `get_account_metadata`, lines 364-376. -/
def getMeta (g : Global) (bs : Boxes) (s : Nat) : Option Meta × Boxes :=
  let bs := ensure g bs s
  match boxGet bs s with
  | some b => (b.info.value, bs)
  | none => (none, bs)

/-- `get_account_metadata_clean`, lines 390-406. -/
def getMetaClean (g : Global) (bs : Boxes) (s : Nat) : Option Meta × Boxes :=
  let bs := ensure g bs s
  match boxGet bs s with
  | some b => (if b.info.status = .clean then b.info.value else b.info.snap, bs)
  | none => (none, bs)

/-- Change the metadata through `get_mut_account_metadata` and then
`mark_account_metadata_updated`, as lines 1339-1384 and context/mod.rs 465-490 do. `none` when
there is no live account. -/
def modifyMeta (g : Global) (bs : Boxes) (s : Nat) (f : Meta → Meta) : Option Boxes :=
  let bs := ensure g bs s
  match boxGet bs s with
  | some b =>
    match b.info.value with
    | some m => some (boxSet bs s { b with info := { b.info with value := some (f m) }.markUpdated })
    | none => none
  | none => none

/-- `update_account_footprints`, lines 470-489. `none` when there is no sandbox; an account
without metadata is left alone. -/
def updateFootprints (g : Global) (bs : Boxes) (s : Nat) (st lk : Delta) : Option Boxes :=
  let bs := ensure g bs s
  match boxGet bs s with
  | none => none
  | some b =>
    match b.info.value with
    | none => some bs
    | some m =>
      match m.updateFootprints st lk with
      | (m', true) => some (boxSet bs s { b with info := { b.info with value := some m' }.markUpdated })
      | (_, false) => some bs

/-- `get_account_storage_entry`, lines 528-558. -/
def getStorage (g : Global) (bs : Boxes) (s : Nat) (k : Bytes) : Option Bytes × Boxes :=
  let bs := ensure g bs s
  match boxGet bs s with
  | none => (none, bs)
  | some b =>
    let r := getEntry b.storage (g.storage s) k
    (r.1, boxSet bs s { b with storage := r.2 })

/-- `get_account_preimages_entry`, lines 668-697. -/
def getPreimage (g : Global) (bs : Boxes) (s : Nat) (k : Bytes) : Option Bytes × Boxes :=
  let bs := ensure g bs s
  match boxGet bs s with
  | none => (none, bs)
  | some b =>
    let r := getEntry b.preimages (g.preimages s) k
    (r.1, boxSet bs s { b with preimages := r.2 })

/-- `get_account_lookups_entry`, lines 806-837. -/
def getLookup (g : Global) (bs : Boxes) (s : Nat) (k : LKey) : Option (List Nat) × Boxes :=
  let bs := ensure g bs s
  match boxGet bs s with
  | none => (none, bs)
  | some b =>
    let r := getEntry b.lookups (g.lookups s) k
    (r.1, boxSet bs s { b with lookups := r.2 })

/-- `insert_account_storage_entry`, lines 583-609. `none`: no such account. -/
def insertStorage (g : Global) (bs : Boxes) (s : Nat) (k v : Bytes) : Option Boxes :=
  let bs := ensure g bs s
  match boxGet bs s with
  | none => none
  | some b => some (boxSet bs s { b with storage := insertEntry b.storage (g.storage s) k v })

/-- `insert_account_preimages_entry`, lines 722-748. -/
def insertPreimage (g : Global) (bs : Boxes) (s : Nat) (k v : Bytes) : Option Boxes :=
  let bs := ensure g bs s
  match boxGet bs s with
  | none => none
  | some b => some (boxSet bs s { b with preimages := insertEntry b.preimages (g.preimages s) k v })

/-- `insert_account_lookups_entry`, lines 862-888. -/
def insertLookup (g : Global) (bs : Boxes) (s : Nat) (k : LKey) (v : List Nat) : Option Boxes :=
  let bs := ensure g bs s
  match boxGet bs s with
  | none => none
  | some b => some (boxSet bs s { b with lookups := insertEntry b.lookups (g.lookups s) k v })

/-- `remove_account_storage_entry`, lines 613-666. Without a sandbox the entry is not found and
nothing is done. -/
def removeStorage (g : Global) (bs : Boxes) (s : Nat) (k : Bytes) : Boxes :=
  let bs := ensure g bs s
  match boxGet bs s with
  | none => bs
  | some b => boxSet bs s { b with storage := removeEntry b.storage (g.storage s) k }

/-- `remove_account_preimages_entry`, lines 752-804. -/
def removePreimage (g : Global) (bs : Boxes) (s : Nat) (k : Bytes) : Boxes :=
  let bs := ensure g bs s
  match boxGet bs s with
  | none => bs
  | some b => boxSet bs s { b with preimages := removeEntry b.preimages (g.preimages s) k }

/-- `remove_account_lookups_entry`, lines 892-947. -/
def removeLookup (g : Global) (bs : Boxes) (s : Nat) (k : LKey) : Boxes :=
  let bs := ensure g bs s
  match boxGet bs s with
  | none => bs
  | some b => boxSet bs s { b with lookups := removeEntry b.lookups (g.lookups s) k }

/-- `eject_account`, lines 1021-1081. `none`: the account is missing (`unreachable!` at 1036, the
caller has checked). -/
def ejectAccount (g : Global) (bs : Boxes) (s : Nat) (k : LKey) : Option Boxes :=
  match getMeta g bs s with
  | (none, _) => none
  | (some _, bs) =>
    match getMetaClean g bs s with
    | (none, bs) => some (boxErase bs s)
    | (some c, bs) =>
      let bs := removePreimage g bs s k.1
      let bs := removeLookup g bs s k
      match boxGet (ensure g bs s) s with
      | none => none
      | some b => some (boxSet (ensure g bs s) s { b with info := .newRemoved c })

end Fastroll.Svc
