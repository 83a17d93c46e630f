import Verif.Conc.Tasks

/-
What a group of concurrent tasks should amount to: the Gray Paper defines every component of the
posterior state as a function of the block, of the prior state and of posterior components it
depends on (section 4.2, "state transition dependency graph"), so there is nothing to schedule.
Here a task is run alone, on plain maps without cache or steps, and a group is correct if every
task returns what it returns alone and every component ends up as its one writer leaves it.
-/
namespace Fastroll.Conc.Paper

open Fastroll.StateCache (Mut)

section
variable {K V R : Type} [DecidableEq K]

/-- A map with one place changed. -/
def put (c : K → Option V) (k : K) (v : Option V) : K → Option V := fun x => if x = k then v else c x

/-- What is left of a component after a change. -/
def kept (m : Mut) (v : V) : Option V := if m = .remove then none else some v

/-- A task alone: `prior` is the state before the block and `cur` the state with the changes made
so far.  What the task returns, and the state it leaves. -/
def alone (prior : K → Option V) : Task K V R → (K → Option V) → R × (K → Option V)
  | .done r, cur => (r, cur)
  | .getClean k n, cur => alone prior (n (prior k)) cur
  | .get k n, cur => alone prior (n (cur k)) cur
  | .withMut k m f n, cur =>
    if m = .add then alone prior (n (.error .wrongMut)) cur
    else match cur k with
      | none => alone prior (n (.error .notInitialized)) cur
      | some v => match f v with
        | none => alone prior (n (.error .closure)) cur
        | some v' => alone prior (n (.ok ())) (put cur k (kept m v'))
  | .add k v n, cur =>
    match cur k with
    | some _ => alone prior (n (.error .exists)) cur
    | none => alone prior (n (.ok ())) (put cur k (some v))

/-- The keys a task may use: read the prior value (`clean`), read the current value (`read`), read
the current value without regard to differences that do not matter (`view`), write (`write`),
create (`make`, among the written ones). -/
structure Foot (K : Type) where
  clean : K → Bool
  read : K → Bool
  view : K → Bool
  write : K → Bool
  make : K → Bool

/-- A task keeps to its keys.  `sim k v v'` is a difference between values that does not matter to
those who only view `k`, and `keep k` says that somebody else views `k`; then a write may only make
such a difference.  The prior value of a key is not asked for after the key has been created. -/
def Within (sim : K → V → V → Prop) (keep : K → Prop) (F : Foot K) :
    Task K V R → (K → Bool) → Prop
  | .done _, _ => True
  | .getClean k n, cl => cl k = true ∧ ∀ r, Within sim keep F (n r) cl
  | .get k n, cl =>
    (F.read k = true ∨ F.write k = true ∨
      (F.view k = true ∧ ∀ v v', sim k v v' → n (some v) = n (some v'))) ∧
    ∀ r, Within sim keep F (n r) cl
  | .withMut k m f n, cl =>
    F.write k = true ∧ (keep k → m = .update ∧ ∀ v v', f v = some v' → sim k v v') ∧
    ∀ r, Within sim keep F (n r) cl
  | .add k _ n, cl =>
    F.write k = true ∧ F.make k = true ∧
    ∀ r, Within sim keep F (n r) (fun x => cl x && decide (x ≠ k))

/-- The tasks of a group do not get in each other's way: what one writes, no other writes or reads,
except for its prior value or as a view; what one creates, nobody else looks at. -/
structure Apart {I : Type} (F : I → Foot K) : Prop where
  write : ∀ i j k, i ≠ j → (F i).write k = true → (F j).write k = false ∧ (F j).read k = false
  make : ∀ i k, (F i).make k = true → (F i).write k = true
  alone : ∀ i j k, i ≠ j → (F i).make k = true → (F j).clean k = false ∧ (F j).view k = false

end

end Fastroll.Conc.Paper

/-! What the shared cache stands for, and when tasks may share it. -/

namespace Fastroll.Conc

section
variable {K V : Type}

/-- The value an entry stands for. -/
def Entry.now (e : Entry V) : Option V := if e.status = .dirty .remove then none else some e.value

/-- The current state, as the cache represents it. -/
def Sh.cur (s : Sh K V) (k : K) : Option V :=
  match s.cache k with
  | none => s.db k
  | some e => e.now

/-- The prior state, as the cache represents it. -/
def Sh.prior (s : Sh K V) (k : K) : Option V :=
  match s.cache k with
  | none => s.db k
  | some e => if e.raw then s.db k else some e.snapshot

/-- The key is cached, and not as a raw entry. -/
def Sh.Warm (s : Sh K V) (k : K) : Prop := ∃ e, s.cache k = some e ∧ e.raw = false

/-- Raw entries are unchanged values of the database. -/
def Sh.Ok (s : Sh K V) : Prop :=
  ∀ k e, s.cache k = some e → e.raw = true → e.status = .clean ∧ s.db k = some e.value

end

section
variable {I K V R : Type} [DecidableEq K]

/-- A group of tasks, the state they start from, their keys and the differences that do not matter. -/
structure Setup (I K V R : Type) where
  s0 : Sh K V
  t : I → Task K V R
  F : I → Paper.Foot K
  sim : K → V → V → Prop

variable (S : Setup I K V R)

/-- Somebody else views the key. -/
def Setup.keep (i : I) (k : K) : Prop := ∃ j, j ≠ i ∧ (S.F j).view k = true

open Fastroll.Conc.Paper (Within Apart) in
/-- The conditions under which a group of tasks may run concurrently. -/
structure Setup.Fit : Prop where
  ok : S.s0.Ok
  within : ∀ i, Within S.sim (S.keep i) (S.F i) (S.t i) (S.F i).clean
  apart : Apart S.F
  warm : ∀ i j k, i ≠ j → (S.F i).write k = true →
    ((S.F j).clean k = true ∨ (S.F j).view k = true) → S.s0.Warm k
  refl : ∀ k v, S.sim k v v
  trans : ∀ k u v w, S.sim k u v → S.sim k v w → S.sim k u w

end

end Fastroll.Conc

/-! The keys of the tasks of the executor. -/

namespace Fastroll.Conc.Paper

/-- Which keys each task of the first phase uses. -/
def preFoot (progressed noDisputes : Bool) : PreTask → Foot Key
  | .disputes => ⟨fun k => !noDisputes && (k == .disputes || k == .active || k == .past),
      fun k => k == .staging, fun _ => false, fun k => k == .disputes, fun _ => false⟩
  | .entropy => ⟨fun _ => false, fun _ => false, fun _ => false, fun k => k == .entropy,
      fun _ => false⟩
  | .past => ⟨fun k => progressed && k == .active, fun _ => false, fun _ => false,
      fun k => progressed && k == .past, fun _ => false⟩
  | .active => ⟨fun k => progressed && k == .safrole, fun _ => false, fun _ => false,
      fun k => progressed && k == .active, fun _ => false⟩
  | .history => ⟨fun k => k == .history, fun _ => false, fun _ => false, fun k => k == .history,
      fun _ => false⟩

/-- Which keys each task of the middle phase uses. -/
def midFoot : MidTask → Foot Key
  | .reports => ⟨fun k => k == .disputes || k == .active || k == .past || k == .pending ||
        k == .authPool || k == .accQueue || k == .accHistory,
      fun k => match k with
        | .timeslot | .disputes | .active | .past | .history | .metadata _ => true
        | _ => false,
      fun k => k == .entropy, fun k => k == .pending, fun _ => false⟩
  | .entropy => ⟨fun _ => false, fun _ => false, fun _ => false, fun k => k == .entropy,
      fun _ => false⟩

/-- Which keys each task of the last phase uses. -/
def endFoot : EndTask → Foot Key
  | .authPool => ⟨fun _ => false, fun k => k == .authQueue, fun _ => false, fun k => k == .authPool,
      fun _ => false⟩
  | .lastAcc => ⟨fun _ => false, fun k => k == .timeslot, fun _ => false,
      fun k => match k with
        | .metadata _ => true
        | _ => false, fun _ => false⟩
  | .stats => ⟨fun _ => false, fun k => k == .active, fun _ => false, fun k => k == .stats,
      fun _ => false⟩
  | .preimages => ⟨fun k => match k with
        | .preimage _ _ | .lookups _ _ _ => true
        | _ => false,
      fun k => k == .timeslot, fun _ => false,
      fun k => match k with
        | .preimage _ _ | .lookups _ _ _ => true
        | _ => false,
      fun k => match k with
        | .preimage _ _ => true
        | _ => false⟩

/-- The difference that the middle phase does not mind: the youngest hash of the entropy, which
the guarantor assignments do not use. -/
def sameHistory {H X : Type} (k : Key) (v v' : Val H X) : Prop :=
  v = v' ∨ k = .entropy ∧ ∃ a b e1 e2 e3, v = .entropy a e1 e2 e3 ∧ v' = .entropy b e1 e2 e3

end Fastroll.Conc.Paper
