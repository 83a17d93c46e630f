import Verif.Svc.SandboxModel

/-!
# Model of writing the sandboxes back to the state

`transition_on_accumulate` applies the sandbox of every touched account
(`/repo/transition/src/state/services.rs` lines 102-392) with the state manager's
`add`, `update` and `remove` (`/repo/state/src/manager.rs` lines 954-1019).

Simplification: the loops over hash maps touch every key once and the keys of the state are
distinct, so the result is given for one key at a time; `none` is the error that aborts the block.
-/
namespace Fastroll.Svc

/-- One entry against the value `c` in the state: `add` fails on an existing entry, `update` and
`remove` on a missing one; an `Added` or `Updated` entry without a value is an error. -/
def applyEntry {α : Type} (e : Entry α) (c : Option α) : Option (Option α) :=
  match e.status with
  | .clean => some c
  | .added => match e.value, c with | some v, none => some (some v) | _, _ => none
  | .updated => match e.value, c with | some v, some _ => some (some v) | _, _ => none
  | .removed => match c with | some _ => some none | none => none

/-- `transition_service_account`, services.rs lines 210-387, for one key of one of the three maps;
`gone` is `metadata_removed`. -/
def applyAt {κ α : Type} (gone : Bool) (m : κ → Option (Entry α)) (g : κ → Option α) (k : κ) : Option (Option α) :=
  match m k with
  | none => some (g k)
  | some e => if gone && e.status ≠ .removed then some (g k) else applyEntry e (g k)

def Box.gone (b : Box) : Bool := b.info.status = .removed

/-- Lines 167-208, for the metadata of one account. -/
def applyMeta (g : Global) (bs : Boxes) (s : Nat) : Option (Option Meta) :=
  match boxGet bs s with
  | none => some (g.metas s)
  | some b => applyEntry b.info (g.metas s)

def applyStorage (g : Global) (bs : Boxes) (s : Nat) (k : Bytes) : Option (Option Bytes) :=
  match boxGet bs s with
  | none => some (g.storage s k)
  | some b => applyAt b.gone b.storage (g.storage s) k

def applyPreimages (g : Global) (bs : Boxes) (s : Nat) (k : Bytes) : Option (Option Bytes) :=
  match boxGet bs s with
  | none => some (g.preimages s k)
  | some b => applyAt b.gone b.preimages (g.preimages s) k

def applyLookups (g : Global) (bs : Boxes) (s : Nat) (k : LKey) : Option (Option (List Nat)) :=
  match boxGet bs s with
  | none => some (g.lookups s k)
  | some b => applyAt b.gone b.lookups (g.lookups s) k

end Fastroll.Svc
