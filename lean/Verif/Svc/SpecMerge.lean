import Verif.Svc.SpecAcc
import Verif.Svc.MergeModel

/-!
# Specification of a round of parallel accumulations

`a` is the state of the accounts when the round starts, as plain maps; every service of the round
works on its own copy of it.
-/
namespace Fastroll.Svc
open Fastroll.Pvm

/-- The accounts as the result `r` would leave them, had it run alone on `a`. -/
def Alone (a : Global) (r : AccResult) : Global := view a r.p.boxes

/-- Run alone, `r` would create or eject the account `s`. -/
def Flips (a : Global) (r : AccResult) (s : Nat) : Prop := ((Alone a r).metas s).isSome ≠ (a.metas s).isSome

/-- Results a round can produce from the state `u` over the committed state `g`: the sandboxes are
consistent, every host existed and none is ejected, an identifier ejected in an earlier round is not
taken again. -/
structure RoundOk (g : Global) (D : Nat → Prop) (u : PState Boxes) (rs : List AccResult) : Prop where
  base : ∀ s b, boxGet u.boxes s = some b → BoxGood g D s b
  good : ∀ r ∈ rs, ∀ s b, boxGet r.p.boxes s = some b → BoxGood g D s b
  hosts : (rs.map AccResult.host).Nodup
  own : ∀ r ∈ rs, (boxGet r.p.boxes r.host).isSome
  alive : ∀ r ∈ rs, ((view g u.boxes).metas r.host).isSome
  stay : ∀ r ∈ rs, ∀ r' ∈ rs, ((Alone (view g u.boxes) r).metas r'.host).isSome
  lost : ∀ r ∈ rs, ∀ s, g.metas s ≠ none → (view g u.boxes).metas s = none → (Alone (view g u.boxes) r).metas s = none

/-! ## Privileges -/

/-- Nothing is pending, as at the start of every round. -/
structure Settled (u : PState Boxes) : Prop where
  assign : u.assign.byBless = none ∧ u.assign.bySelf = []
  designate : u.designate.byBless = none ∧ u.designate.bySelf = none
  registrar : u.registrar.byBless = none ∧ u.registrar.bySelf = none

/-- The Gray Paper's `R(o, a, b)`: the manager's choice `a` if it is a change, else the holder's `b`. -/
def resolve (o a b : Nat) : Nat := if a ≠ o then a else b

/-- The result of the service `s` in the round, if it has one. -/
def resultOf (rs : List AccResult) (s : Nat) : Option AccResult := rs.find? fun r => r.host == s

/-- The holder the manager wants for a role, and the one the present holder wants. -/
def managersChoice (role : PState Boxes → Role) (o mgr : Nat) (rs : List AccResult) : Nat :=
  ((resultOf rs mgr).bind fun r => (role r.p).byBless).getD o
def holdersChoice (role : PState Boxes → Role) (o : Nat) (rs : List AccResult) : Nat :=
  ((resultOf rs o).bind fun r => (role r.p).bySelf).getD o

/-- Every change from `u` to `v` was asked for, in the round, by a service that may ask for it:
the manager of `u` for the manager and the always-accumulate services; it or the holder for a role;
the assigner of a core for its queue; the designate for the staging set. -/
structure Authorised (u : PState Boxes) (rs : List AccResult) (v : PState Boxes) : Prop where
  manager : v.manager = u.manager ∨ ∃ r ∈ rs, r.host = u.manager ∧ v.manager = r.p.manager
  always : v.always = u.always ∨ ∃ r ∈ rs, r.host = u.manager ∧ v.always = r.p.always
  designate : v.designate.confirmed = u.designate.confirmed ∨ ∃ r ∈ rs,
    (r.host = u.manager ∧ r.p.designate.byBless = some v.designate.confirmed) ∨
    (r.host = u.designate.confirmed ∧ r.p.designate.bySelf = some v.designate.confirmed)
  registrar : v.registrar.confirmed = u.registrar.confirmed ∨ ∃ r ∈ rs,
    (r.host = u.manager ∧ r.p.registrar.byBless = some v.registrar.confirmed) ∨
    (r.host = u.registrar.confirmed ∧ r.p.registrar.bySelf = some v.registrar.confirmed)
  assign : ∀ c : Nat, v.assign.confirmed[c]? = u.assign.confirmed[c]? ∨ ∃ r ∈ rs,
    (r.host = u.manager ∧ ∃ l, r.p.assign.byBless = some l ∧ v.assign.confirmed[c]? = l[c]?) ∨
    (u.assign.confirmed[c]? = some r.host ∧ ∃ s, (c, s) ∈ r.p.assign.bySelf ∧ v.assign.confirmed[c]? = some s)
  queue : ∀ c : Nat, v.authQueue[c]? = u.authQueue[c]? ∨ ∃ r ∈ rs,
    u.assign.confirmed[c]? = some r.host ∧ v.authQueue[c]? = r.p.authQueue[c]?
  staging : v.staging = u.staging ∨ ∃ r ∈ rs, r.host = u.designate.confirmed ∧ v.staging = r.p.staging

/-! ## Preimages -/

/-- The preimage `e.2` given to the account `e.1`: kept if the account exists and asks for it. -/
def given (env : Env) (a : Global) (e : Nat × Bytes) : Global :=
  if (a.metas e.1).isSome ∧ a.lookups e.1 (env.hash e.2, e.2.length % 2 ^ 32) = some [] then
    { a with
      preimages := upd2 a.preimages e.1 (env.hash e.2) (some e.2)
      lookups := upd2 a.lookups e.1 (env.hash e.2, e.2.length % 2 ^ 32) (some [env.slot]) }
  else a

/-- A preimage is available at `t` when an odd number of the recorded slots have passed: the slots are
alternately those at which it became available and those at which it ceased to be. -/
def Available (ts : List Nat) (t : Nat) : Prop := (ts.filter (· ≤ t)).length % 2 = 1

/-- No account asks for one hash under two lengths. -/
def OneLength (a : Global) : Prop :=
  ∀ s h l l', (a.lookups s (h, l)).isSome → (a.lookups s (h, l')).isSome → l = l'

/-- A stored preimage has the hash it is stored under. -/
def Hashed (hash : Bytes → Bytes) (a : Global) : Prop := ∀ s h d, a.preimages s h = some d → hash d = h

/-! ## Checkpoints -/

/-- A `checkpoint` call that had the gas to happen. -/
def isSave (c : Nat × VM) : Prop := c.1 = 17 ∧ 10 ≤ c.2.gas

/-- `pre` is the part of the calls up to and including the last checkpoint (nothing, if there was
none). -/
def LastSave (cs pre : List (Nat × VM)) : Prop :=
  ∃ post, cs = pre ++ post ∧ (pre = [] ∨ ∃ p c, pre = p ++ [c] ∧ isSave c) ∧ ∀ c ∈ post, ¬ isSave c

end Fastroll.Svc
