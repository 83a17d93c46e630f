/-
Model of the construction of state keys: `state/src/state_utils.rs` 200-398.

Keys are lists of 31 bytes.  The hash function is a parameter.
-/
namespace Fastroll.StateKeys

/-- The little-endian bytes of a 32-bit number (`to_le_bytes`, `encode_fixed(4)`). -/
def le4 (n : Nat) : List UInt8 :=
  [UInt8.ofNat n, UInt8.ofNat (n / 256), UInt8.ofNat (n / 65536), UInt8.ofNat (n / 16777216)]

/-- `StateKeyConstant` of the sixteen simple components, state/src/state_utils.rs 200-218. -/
inductive Component
  | authPool | authQueue | blockHistory | safrole | disputes | entropy | stagingSet | activeSet | pastSet
  | pendingReports | timeslot | privileges | statistics | accQueue | accHistory | lastOutputs
  deriving DecidableEq, Repr

/-- The discriminants, state/src/state_utils.rs 203-218. -/
def Component.code : Component → Nat
  | .authPool => 1
  | .authQueue => 2
  | .blockHistory => 3
  | .safrole => 4
  | .disputes => 5
  | .entropy => 6
  | .stagingSet => 7
  | .activeSet => 8
  | .pastSet => 9
  | .pendingReports => 10
  | .timeslot => 11
  | .privileges => 12
  | .statistics => 13
  | .accQueue => 14
  | .accHistory => 15
  | .lastOutputs => 16

/-- `construct_state_key`, state/src/state_utils.rs 310-315. -/
def constructKey (i : UInt8) : List UInt8 := i :: List.replicate 30 0

/-- `STATE_KEYS`, state/src/state_utils.rs 317-334. -/
def stateKeys : List (List UInt8) :=
  [Component.authPool, .authQueue, .blockHistory, .safrole, .disputes, .entropy, .stagingSet, .activeSet, .pastSet,
    .pendingReports, .timeslot, .privileges, .statistics, .accQueue, .accHistory, .lastOutputs].map
    fun c => constructKey (UInt8.ofNat c.code)

/-- `get_simple_state_key`, state/src/state_utils.rs 336-339; the index is always in range for these
components (`AccountMetadata` is not among them: index 254 would panic). -/
def simpleKey (c : Component) : List UInt8 := stateKeys.getD (c.code - 1) []

/-- `get_account_metadata_state_key`, state/src/state_utils.rs 341-350. -/
def metadataKey (s : Nat) : List UInt8 :=
  let e := le4 s
  [255, e.getD 0 0, 0, e.getD 1 0, 0, e.getD 2 0, 0, e.getD 3 0] ++ List.replicate 23 0

/-- `construct_storage_state_key`, state/src/state_utils.rs 352-367. -/
def entryKeyOf (H : List UInt8 → List UInt8) (s : Nat) (pre : List UInt8) : List UInt8 :=
  let e := le4 s
  let h := H pre
  [e.getD 0 0, h.getD 0 0, e.getD 1 0, h.getD 1 0, e.getD 2 0, h.getD 2 0, e.getD 3 0, h.getD 3 0] ++
    (h.drop 4).take 23

/-- The entries of a service: a storage item under a name, a preimage under its hash, a lookup record
under hash and length. -/
inductive Item
  | storage (name : List UInt8)
  | preimage (h : List UInt8)
  | lookup (h : List UInt8) (l : Nat)
  deriving DecidableEq, Repr

/-- What is hashed for the key of an entry, state/src/state_utils.rs 373-375, 383-385, 393-396. -/
def Item.hashed : Item → List UInt8
  | .storage name => le4 (2 ^ 32 - 1) ++ name
  | .preimage h => le4 (2 ^ 32 - 1 - 1) ++ h
  | .lookup h l => le4 l ++ h

/-- `get_account_storage_state_key`, `get_account_preimage_state_key`, `get_account_lookups_state_key`,
state/src/state_utils.rs 369-398. -/
def entryKey (H : List UInt8 → List UInt8) (s : Nat) (it : Item) : List UInt8 := entryKeyOf H s it.hashed

end Fastroll.StateKeys
