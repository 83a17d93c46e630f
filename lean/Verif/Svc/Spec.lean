import Verif.Svc.HostModel

/-!
# Specification of the account store: plain maps

`mapStore` keeps the accounts as four maps and does every operation directly on them: no sandbox,
no cached copies, no status flags. `view g bs` is what a sandbox `bs` over the global state `g`
means. The refinement theorems say the sandbox behaves as the plain maps of its view.
-/
namespace Fastroll.Svc

/-- A two-level map updated at one place. -/
def upd2 {κ α : Type} [DecidableEq κ] (f : Nat → κ → Option α) (s : Nat) (k : κ) (v : Option α) :
    Nat → κ → Option α := fun s' => if s' = s then upd (f s) k v else f s'

/-- A two-level map with everything under `s` dropped. -/
def clear {κ α : Type} (f : Nat → κ → Option α) (s : Nat) : Nat → κ → Option α :=
  fun s' => if s' = s then fun _ => none else f s'

def mapStore : Store Global where
  info := fun a s => (a.metas s, a)
  modify := fun a s f => (a.metas s).map fun m => { a with metas := upd a.metas s (some (f m)) }
  footprints := fun a s st lk =>
    (a.metas s).map fun m => { a with metas := upd a.metas s (some (m.updateFootprints st lk).1) }
  existsEff := fun a s => (a.metas s).isSome
  existsAct := fun a s => ((a.metas s).isSome, a)
  create := fun a s m =>
    { metas := upd a.metas s (some m), storage := clear a.storage s,
      preimages := clear a.preimages s, lookups := clear a.lookups s }
  getS := fun a s k => (a.storage s k, a)
  getP := fun a s k => (a.preimages s k, a)
  getL := fun a s k => (a.lookups s k, a)
  insS := fun a s k v => (a.metas s).map fun _ => { a with storage := upd2 a.storage s k (some v) }
  insL := fun a s k v => (a.metas s).map fun _ => { a with lookups := upd2 a.lookups s k (some v) }
  remS := fun a s k => { a with storage := upd2 a.storage s k none }
  remP := fun a s k => { a with preimages := upd2 a.preimages s k none }
  remL := fun a s k => { a with lookups := upd2 a.lookups s k none }
  eject := fun a s _ => (a.metas s).map fun _ =>
    { metas := upd a.metas s none, storage := clear a.storage s,
      preimages := clear a.preimages s, lookups := clear a.lookups s }

/-- An entry map laid over the global map it copies. -/
def lay {κ α : Type} (m : κ → Option (Entry α)) (g : κ → Option α) : κ → Option α := fun k =>
  match m k with
  | some e => e.value
  | none => g k

/-- What the sandbox `bs` over `g` means. -/
def view (g : Global) (bs : Boxes) : Global where
  metas := fun s => match boxGet bs s with | some b => b.info.value | none => g.metas s
  storage := fun s => match boxGet bs s with | some b => lay b.storage (g.storage s) | none => g.storage s
  preimages := fun s => match boxGet bs s with | some b => lay b.preimages (g.preimages s) | none => g.preimages s
  lookups := fun s => match boxGet bs s with | some b => lay b.lookups (g.lookups s) | none => g.lookups s

/-- An account that does not exist owns nothing. -/
def Global.NoOrphans (g : Global) : Prop :=
  ∀ s, g.metas s = none → (∀ k, g.storage s k = none) ∧ (∀ k, g.preimages s k = none) ∧ (∀ k, g.lookups s k = none)

/-- The account `s` owns nothing but the request `k` and perhaps its preimage. -/
def Global.OnlyRequest (a : Global) (s : Nat) (k : LKey) : Prop :=
  (∀ k', a.storage s k' = none) ∧ (∀ h, h ≠ k.1 → a.preimages s h = none) ∧
  (∀ k', k' ≠ k → a.lookups s k' = none)

/-- The committed value an entry remembers. -/
def Entry.cleanVal {α : Type} (e : Entry α) : Option α := if e.status = .clean then e.value else e.snap

/-- An entry agrees with the committed value `c` and its status with its value. -/
def Entry.Good {α : Type} (e : Entry α) (c : Option α) : Prop :=
  e.cleanVal = c ∧ (e.status = .removed ↔ e.value = none) ∧ (e.status = .added ↔ c = none)

def MapGood {κ α : Type} (m : κ → Option (Entry α)) (g : κ → Option α) : Prop :=
  ∀ k e, m k = some e → e.Good (g k)

/-- A sandbox in which every entry remembers its committed value. The metadata of the services in
`D` is exempt: `mark_updated` takes no snapshot, so the metadata of every service that has run is
without one. -/
structure BoxGood (g : Global) (D : Nat → Prop) (s : Nat) (b : Box) : Prop where
  info : b.info.status = .removed ↔ b.info.value = none
  clean : ¬ D s → b.info.cleanVal = g.metas s
  fresh : b.info.status = .added ↔ g.metas s = none
  idle : b.info.status = .clean → b.info.value = g.metas s
  storage : MapGood b.storage (g.storage s)
  preimages : MapGood b.preimages (g.preimages s)
  lookups : MapGood b.lookups (g.lookups s)

structure Inv (g : Global) (D : Nat → Prop) (host : Nat) (bs : Boxes) : Prop where
  boxes : ∀ s b, boxGet bs s = some b → BoxGood g D s b
  own : D host
  alive : ((view g bs).metas host).isSome

/-- A context with its sandbox replaced by what it means. -/
def Ctx.view (g : Global) (x : Ctx Boxes) : Ctx Global where
  host := x.host
  p := { boxes := Svc.view g x.p.boxes, staging := x.p.staging, authQueue := x.p.authQueue,
         manager := x.p.manager, assign := x.p.assign, designate := x.p.designate,
         registrar := x.p.registrar, always := x.p.always }
  nextId := x.nextId
  transfers := x.transfers
  yielded := x.yielded
  provided := x.provided

/-- The identifier `new` gives to the account it creates. -/
def newTarget {β : Type} (vm : Pvm.VM) (x : Ctx β) : Nat :=
  if (u32? vm 12).getD (U32 - 1) < MIN_ID ∧ x.host = x.p.registrar.current
  then (u32? vm 12).getD (U32 - 1) else x.nextId

end Fastroll.Svc
