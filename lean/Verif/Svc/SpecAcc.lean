import Verif.Svc.Spec

/-!
# Specification of accounts: usage, tokens, identifiers, sequences of host calls

Nothing here refers to sandboxes, footprint deltas or statuses.
-/
namespace Fastroll.Svc
open Fastroll.Pvm

/-! ## Sequences of host calls -/

/-- Make the calls one after the other; `none` when one aborts the accumulation. -/
def runCalls {σ : Type} (host : Host σ) : List (Nat × VM) → σ → Option σ
  | [], s => some s
  | c :: cs, s =>
    match host c.1 c.2 s with
    | (.ok _, s') => runCalls host cs s'
    | (.error _, _) => none

/-- `P` holds of the state before, between and after the calls. -/
def Throughout {σ : Type} (host : Host σ) (P : σ → Prop) (cs : List (Nat × VM)) (s : σ) : Prop :=
  ∀ pre, pre <+: cs → ∀ s', runCalls host pre s = some s' → P s'

/-- `P` holds of each call and the state it is made in. -/
def BeforeEach {σ : Type} (host : Host σ) (P : Nat → VM → σ → Prop) (cs : List (Nat × VM)) (s : σ) : Prop :=
  ∀ pre c, pre ++ [c] <+: cs → ∀ s', runCalls host pre s = some s' → P c.1 c.2 s'

/-- The host call a machine runs into. -/
def nextCall (p : Prog) (fuel : Nat) (vm : VM) : Option (Nat × VM) :=
  match runFuel p fuel vm with
  | (some (.ok (.hostCall h)), vm) => some (h, vm)
  | _ => none

/-- The host calls a program makes, with the machine at each. -/
def extTrace {σ : Type} (p : Prog) (host : Host σ) (fuel : Nat) : Nat → VM → σ → List (Nat × VM)
  | 0, _, _ => []
  | n + 1, vm, s =>
    match nextCall p fuel vm with
    | none => []
    | some c =>
      c :: match extIter p host fuel vm s with
        | (.continue, vm, s) => extTrace p host fuel n vm s
        | _ => []

/-! ## What an account uses -/

/-- `l` lists the keys of the map `f`, each once. -/
def Enum {κ α : Type} (f : κ → Option α) (l : List κ) : Prop := l.Nodup ∧ ∀ k, k ∈ l ↔ (f k).isSome

/-- What one entry weighs. -/
def wt {κ α : Type} (w : κ → α → Nat) (k : κ) : Option α → Nat
  | some v => w k v
  | none => 0

/-- What the listed entries weigh together. -/
def total {κ α : Type} (w : κ → α → Nat) (f : κ → Option α) (l : List κ) : Nat := (l.map fun k => wt w k (f k)).sum

/-- Octets charged for a storage entry and for a preimage request. -/
def storWeight (k v : Bytes) : Nat := 34 + k.length + v.length
def lookWeight (k : LKey) (_ : List Nat) : Nat := 81 + k.2

/-- The account `s` uses `i` items and `o` octets: one item for each storage entry, two for each
request. -/
def Usage (a : Global) (s i o : Nat) : Prop :=
  ∃ ks ls, Enum (a.storage s) ks ∧ Enum (a.lookups s) ls ∧ i = ks.length + 2 * ls.length ∧
    o = total storWeight (a.storage s) ks + total lookWeight (a.lookups s) ls

/-- What an account using `i` items and `o` octets must hold, before any discount. -/
def deposit (i o : Nat) : Nat := 100 + 10 * i + o

/-- No account uses more than the counters can hold. -/
def Global.InRange (a : Global) : Prop := ∀ s i o, Usage a s i o → i < 2 ^ 32 ∧ deposit i o < 2 ^ 64

/-- Consistent accounts: nothing is owned by a missing account, the footprints are exact and every
preimage was requested. -/
structure Global.Sound (a : Global) : Prop where
  orphans : a.NoOrphans
  exact : ∀ s m, a.metas s = some m → Usage a s m.items m.octets
  requested : ∀ s h d, a.preimages s h = some d → ∃ l, (a.lookups s (h, l)).isSome

/-! ## Tokens -/

/-- The tokens held by all accounts, and those on their way. -/
def Held (a : Global) (n : Nat) : Prop := ∃ l, Enum a.metas l ∧ n = total (fun _ m => Meta.balance m) a.metas l
def inFlight (ts : List Transfer) : Nat := (ts.map Transfer.amount).sum
/-- `n` tokens in the context: held or in flight. -/
def Tokens (x : Ctx Global) (n : Nat) : Prop := ∃ h, Held x.p.boxes h ∧ n = h + inFlight x.transfers

/-- Every account holds the deposit for what it uses, less its discount. -/
def Solvent (a : Global) : Prop :=
  ∀ s m, a.metas s = some m → ∃ i o, Usage a s i o ∧ deposit i o ≤ m.balance + m.gratis

/-! ## Requests -/

/-- One step of the life of a preimage request at slot `now`: `none` is no request, `[]` requested,
`[x]` available since `x`, `[x, y]` unavailable since `y`, `[x, y, z]` available again since `z`. -/
inductive LifeStep (expired : Nat → Prop) (now : Nat) : Option (List Nat) → Option (List Nat) → Prop
  | stay (r) : LifeStep expired now r r
  | request : LifeStep expired now none (some [])
  | withdraw : LifeStep expired now (some []) none
  | retire (x) : LifeStep expired now (some [x]) (some [x, now])
  | again (x y) : LifeStep expired now (some [x, y]) (some [x, y, now])
  | forget (x y) : expired y → LifeStep expired now (some [x, y]) none
  | retireAgain (x y z) : expired y → LifeStep expired now (some [x, y, z]) (some [z, now])

/-- At most three slots, in order, none in the future. -/
def SlotsOk (now : Nat) (ts : List Nat) : Prop := ts.length ≤ 3 ∧ ts.Pairwise (· ≤ ·) ∧ ∀ t ∈ ts, t ≤ now
def Global.SlotsOk (now : Nat) (a : Global) : Prop := ∀ s k ts, a.lookups s k = some ts → Svc.SlotsOk now ts

/-! ## Identifiers -/

/-- A public identifier. -/
def Public (id : Nat) : Prop := MIN_ID ≤ id ∧ id < MIN_ID + RING
/-- The identifier kept for the next new account is public and not in use. -/
def NextFree (x : Ctx Global) : Prop := Public x.nextId ∧ x.p.boxes.metas x.nextId = none

/-! ## Contexts of an accumulation -/

def Pair.view (g : Global) (q : Pair Boxes) : Pair Global where
  x := q.x.view g
  y := q.y.view g

/-- Both contexts of an accumulation of `host` over the committed state `g`, started with the
services in `D` without snapshots of their metadata. -/
structure PairInv (g : Global) (D : Nat → Prop) (host : Nat) (q : Pair Boxes) : Prop where
  x : Inv g D host q.x.p.boxes
  y : Inv g D host q.y.p.boxes
  hx : q.x.host = host
  hy : q.y.host = host

/-- What the sandbox needs of a call to behave as the plain maps: `new` does not take the identifier of
a committed account, and `eject` does not hit a service in `D`. -/
def CallOk (g : Global) (D : Nat → Prop) (h : Nat) (vm : VM) (q : Pair Global) : Prop :=
  (h = 18 → g.metas (newTarget vm q.x) = none) ∧
  (h = 21 → ∀ e, u32? vm 7 = some e → e ≠ q.x.host → ¬ D e)

end Fastroll.Svc
