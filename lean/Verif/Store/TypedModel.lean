import Verif.Store.Model
import Verif.Comp.Model
/-
The values of the store: `StateEntryType` (state/src/state_utils.rs 97-198) with the codecs of the
components (C60).  A key is read and written with one type only; which one is a parameter here, since the
keys of service entries are hashes and do not show the type (C34 says when two keys coincide).
-/
namespace Fastroll.Store
open Fastroll Fastroll.Codec Fastroll.Wire Fastroll.Comp

/-- The type of an entry. -/
inductive Kind
  | pool | queue | history | safrole | disputes | entropy | keys | pending | slot | privileges | statistics | ready
  | done | outputs | metadata | lookups | blob
  deriving DecidableEq, Repr

/-- `StateEntryType`: a value with its type.  The three validator sets are of one kind, and so are storage and
preimage entries. -/
inductive Val
  | pool (x : List (List Bytes)) | queue (x : List (List Bytes)) | history (x : Comp.History) | safrole (x : Comp.Safrole)
  | disputes (x : Comp.Disputes) | entropy (x : List Bytes) | keys (x : List VKey)
  | pending (x : List (Option (WorkReport × Nat))) | slot (x : Nat) | privileges (x : Comp.Privileges)
  | statistics (x : Comp.Statistics) | ready (x : List (List (WorkReport × List Bytes))) | done (x : List (List Bytes))
  | outputs (x : List (Nat × Bytes)) | metadata (x : Comp.Metadata) | lookups (x : List Nat) | blob (x : Bytes)

def Val.kind : Val → Kind
  | .pool _ => .pool
  | .queue _ => .queue
  | .history _ => .history
  | .safrole _ => .safrole
  | .disputes _ => .disputes
  | .entropy _ => .entropy
  | .keys _ => .keys
  | .pending _ => .pending
  | .slot _ => .slot
  | .privileges _ => .privileges
  | .statistics _ => .statistics
  | .ready _ => .ready
  | .done _ => .done
  | .outputs _ => .outputs
  | .metadata _ => .metadata
  | .lookups _ => .lookups
  | .blob _ => .blob

/-- `JamEncode for StateEntryType`, lines 172-198 (`Raw`, which imported states go through, is left out). -/
def Val.enc : Val → Except Codec.Err Bytes
  | .pool x => poolEnc x
  | .queue x => queueEnc x
  | .history x => History.enc x
  | .safrole x => Safrole.enc x
  | .disputes x => Disputes.enc x
  | .entropy x => entropyEnc x
  | .keys x => keysEnc x
  | .pending x => pendingEnc x
  | .slot x => slotEnc x
  | .privileges x => Privileges.enc x
  | .statistics x => Statistics.enc x
  | .ready x => readyEnc x
  | .done x => doneEnc x
  | .outputs x => outputsEnc x
  | .metadata x => Metadata.enc x
  | .lookups x => lookupsEnc x
  | .blob x => blobEnc x

/-- A decoded value, if decoding went well. -/
def wrap {α : Type} (f : α → Val) : Except Codec.Err α → Option Val
  | .ok a => some (f a)
  | .error _ => none

/-- `T::decode` for the type of the key, manager.rs 904-911 and 942-949. -/
def Kind.dec (D : Dims) (b : Bytes) : Kind → Option Val
  | .pool => wrap .pool (reload (poolDec D) b)
  | .queue => wrap .queue (reload (queueDec D) b)
  | .history => wrap .history (reload (History.dec D) b)
  | .safrole => wrap .safrole (reload (Safrole.dec D) b)
  | .disputes => wrap .disputes (reload Disputes.dec b)
  | .entropy => wrap .entropy (reload entropyDec b)
  | .keys => wrap .keys (reload (keysDec D) b)
  | .pending => wrap .pending (reload (pendingDec D) b)
  | .slot => wrap .slot (reload slotDec b)
  | .privileges => wrap .privileges (reload (Privileges.dec D) b)
  | .statistics => wrap .statistics (reload (Statistics.dec D) b)
  | .ready => wrap .ready (reload (readyDec D) b)
  | .done => wrap .done (reload (doneDec D) b)
  | .outputs => wrap .outputs (reload outputsDec b)
  | .metadata => wrap .metadata (reload Metadata.dec b)
  | .lookups => wrap .lookups (reload lookupsDec b)
  | .blob => wrap .blob (reload blobDec b)

/-- The store's codecs, for the types `ty` of the keys.  Encoding errors do not occur for well-formed values
(`val_codes`). -/
def typed (D : Dims) (ty : Key → Kind) : Codec Val where
  enc v := match v.enc with
    | .ok b => b
    | .error _ => []
  dec k b := (ty k).dec D b

end Fastroll.Store
