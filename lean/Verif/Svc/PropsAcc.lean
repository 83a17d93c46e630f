import Verif.Svc.LemmasRun

/-!
# C17, C19, C20, C21, C22: what the host calls of an accumulation do to the accounts

Every theorem speaks of the sandboxes the code keeps, through what they mean (`view`). A `Run` is any
sequence of host calls, with any machine state at each call, that the code does not abort; `D` are the
services whose metadata lost its snapshot in an earlier round. `run_of_program` turns the execution of
any program into a `Run`.
-/
namespace Fastroll.Svc
open Fastroll.Pvm

variable {g : Global} {D : Nat → Prop} {host : Nat} {env : Env} {cs : List (Nat × VM)} {q q' : Pair Boxes}

/-! ## C17 -/

/-- **One call, one step.** Each host call takes every request of every account one step along its life
cycle, or leaves it alone. (A request of an account ejected by the call is dropped like any expired one.) -/
theorem C17_calls_follow_life_cycle {c : Nat × VM} (R : Run g D host env [c] q q') (F : NextFree (q.view g).x)
    (hw : env.slot + env.par.expiry < 2 ^ 32) (hs : (q.view g).x.p.boxes.SlotsOk env.slot) (s : Nat) (k : LKey) :
    LifeStep (fun y => y + env.par.expiry < env.slot) env.slot
      ((q.view g).x.p.boxes.lookups s k) ((q'.view g).x.p.boxes.lookups s k) := by
  rcases R.step with e | st
  · rw [e]; exact .stay _
  · have L := st.life R.good.sx F s k
    have ho := hs s k
    revert L ho
    generalize (q.view g).x.p.boxes.lookups s k = a
    generalize (q'.view g).x.p.boxes.lookups s k = b
    intro L ho
    have key : ∀ y, y ≤ env.slot → expiresAt env y < env.slot → y + env.par.expiry < env.slot := by
      intro y hy h
      unfold expiresAt at h
      rwa [Nat.mod_eq_of_lt (by unfold U32; omega)] at h
    cases L with
    | stay => exact .stay _
    | request => exact .request
    | withdraw => exact .withdraw
    | retire x => exact .retire x
    | again x y => exact .again x y
    | forget x y h => exact .forget x y (key y ((ho _ rfl).2.2 y (by simp)) h)
    | retireAgain x y z h => exact .retireAgain x y z (key y ((ho _ rfl).2.2 y (by simp)) h)

/-- **Recorded slots.** Through any calls every request keeps at most three slots, in order, none in the
future. -/
theorem C17_slots_ordered (R : Run g D host env cs q q') (hx : (q.view g).x.p.boxes.SlotsOk env.slot)
    (hy : (q.view g).y.p.boxes.SlotsOk env.slot) :
    (q'.view g).x.p.boxes.SlotsOk env.slot ∧ (q'.view g).y.p.boxes.SlotsOk env.slot :=
  R.keeps (P := fun x => x.p.boxes.SlotsOk env.slot) hx hy fun _ _ h _ _ _ st => st.slots h

theorem Ex.slots : Ex.g.SlotsOk 20 := by
  intro s k ts h
  simp only [Ex.g] at h
  split at h
  · cases h; exact ⟨by decide, by decide, by decide⟩
  · cases h

/-- The example run: the ejected service's request goes from `[1, 2]` to nothing, 2 + 5 < 20. -/
example : ∃ q', Run Ex.g (· = 7) 7 Ex.env [Ex.write, Ex.eject] (Ex.pair []) q' ∧
    (q'.view Ex.g).x.p.boxes.SlotsOk 20 ∧ (Ex.g.lookups 8 (Ex.zeros, 3)) = some [1, 2] ∧
    (q'.view Ex.g).x.p.boxes.lookups 8 (Ex.zeros, 3) = none := by
  obtain ⟨q', R, e⟩ := Ex.run
  refine ⟨q', R, (C17_slots_ordered R Ex.slots Ex.slots).1, rfl, ?_⟩
  rw [e]; rfl

/-- An account with a request for `zeros` of length 3 that is available, and its preimage. -/
def Ex.avail : Global :=
  { metas := fun s => if s = 7 then some { codeHash := Ex.zeros, balance := 10000, octets := 84, items := 2 } else none,
    storage := fun _ _ => none,
    preimages := fun s h => if s = 7 ∧ h = Ex.zeros then some [1, 2, 3] else none,
    lookups := fun s k => if s = 7 ∧ k = (Ex.zeros, 3) then some [5] else none }

set_option maxRecDepth 20000 in
/-- **A preimage lost while its request is available.** Soliciting the same hash with another length and
withdrawing that second request deletes the preimage of the first, which still says available since
slot 5. Missing from C17: that a preimage is held exactly while its request says so. -/
theorem C17_preimage_lost_partial :
    ∃ q', runCalls (accHost (boxStore Ex.avail) Ex.env) [Ex.solicit, Ex.forget] (Ex.pair []) = some q' ∧
      (view Ex.avail q'.x.p.boxes).lookups 7 (Ex.zeros, 3) = some [5] ∧
      Ex.avail.preimages 7 Ex.zeros = some [1, 2, 3] ∧ (view Ex.avail q'.x.p.boxes).preimages 7 Ex.zeros = none :=
  ⟨_, rfl, rfl, rfl, rfl⟩

/-! ## C19 -/

/-- **Exact footprints.** Through any calls, the item and octet counters of every account equal what its
contents use: one item per storage entry and two per request, `34 + |key| + |value|` octets per storage
entry and `81 + length` per request. -/
theorem C19_footprint_exact (R : Run g D host env cs q q') (s : Nat) (m : Meta)
    (h : (q'.view g).x.p.boxes.metas s = some m) : Usage (q'.view g).x.p.boxes s m.items m.octets :=
  R.after.2.sx.exact s m h

/-- **Exact threshold.** The threshold the code computes from the counters is the deposit for the actual
contents, less the discount. -/
theorem C19_threshold_exact (R : Run g D host env cs q q') (s i o : Nat) (m : Meta)
    (h : (q'.view g).x.p.boxes.metas s = some m) (U : Usage (q'.view g).x.p.boxes s i o) :
    m.threshold = deposit i o - m.gratis := by
  have U' := R.after.2.sx.exact s m h
  obtain ⟨e1, e2⟩ := usage_unique U U'
  subst e1; subst e2
  exact threshold_eq (R.last _ _ _ U).2

/-- After the example's write the counters say 38 octets: 34 + 1 for the key + 3 for the value. -/
example : ∃ q' m, Run Ex.g (· = 7) 7 Ex.env [Ex.write, Ex.eject] (Ex.pair []) q' ∧
    (q'.view Ex.g).x.p.boxes.metas 7 = some m ∧ m.items = 1 ∧ m.octets = 38 ∧ m.threshold = 148 ∧
    Usage (q'.view Ex.g).x.p.boxes 7 1 38 := by
  obtain ⟨q', R, e⟩ := Ex.run
  have h : (q'.view Ex.g).x.p.boxes.metas 7 = some { Ex.meta7 with octets := 38, balance := 10300 } := by rw [e]; rfl
  exact ⟨q', _, R, h, rfl, rfl, rfl, C19_footprint_exact R 7 _ h⟩

/-! ## C20 -/

/-- **Token conservation.** Through any calls the balances of all accounts plus the amounts of the pending
transfers stay the same, in both contexts. -/
theorem C20_tokens_conserved (R : Run g D host env cs q q') (n : Nat) (Fx : NextFree (q.view g).x) (Fy : NextFree (q.view g).y)
    (hx : Tokens (q.view g).x n) (hy : Tokens (q.view g).y n) :
    Tokens (q'.view g).x n ∧ Tokens (q'.view g).y n := by
  have := R.keeps (P := fun x => NextFree x ∧ Tokens x n) ⟨Fx, hx⟩ ⟨Fy, hy⟩
    fun _ _ h _ _ _ st => ⟨st.next h.1, st.tokens h.1 h.2⟩
  exact ⟨this.1.2, this.2.2⟩

/-- **Solvency.** Through any calls every account keeps the deposit for what it uses. -/
theorem C20_solvent (R : Run g D host env cs q q') (Ry : (q.view g).y.p.boxes.InRange)
    (hx : Solvent (q.view g).x.p.boxes) (hy : Solvent (q.view g).y.p.boxes) :
    Solvent (q'.view g).x.p.boxes ∧ Solvent (q'.view g).y.p.boxes := by
  have Rx := R.range.here
  have := R.keeps (P := fun x => x.p.boxes.Sound ∧ x.p.boxes.InRange ∧ Covered x.p.boxes)
    ⟨R.good.sx, Rx, covered_of R.good.sx Rx hx⟩ ⟨R.good.sy, Ry, covered_of R.good.sy Ry hy⟩
    fun _ _ h S r r' st => ⟨st.sound S r r', r', st.covered S r r' h.2.2⟩
  exact ⟨solvent_iff this.1.1 this.1.2.1 this.1.2.2, solvent_iff this.2.1 this.2.2.1 this.2.2.2⟩

theorem Ex.held : Held Ex.g 10300 := by
  refine ⟨[7, 8], ⟨by decide, fun k => ?_⟩, by decide⟩
  by_cases c7 : k = 7
  · subst c7; decide
  · by_cases c8 : k = 8
    · subst c8; decide
    · simp [Ex.g, c7, c8]

theorem Ex.solvent : Solvent Ex.g := by
  intro s m h
  by_cases c7 : s = 7
  · subst c7; cases h; exact ⟨1, 37, Ex.usage7, by decide⟩
  · by_cases c8 : s = 8
    · subst c8; cases h; exact ⟨2, 84, Ex.usage8, by decide⟩
    · simp [Ex.g, c7, c8] at h

/-- The example run keeps its 10300 tokens and its accounts solvent. -/
example : ∃ q', Run Ex.g (· = 7) 7 Ex.env [Ex.write, Ex.eject] (Ex.pair []) q' ∧
    Tokens (q'.view Ex.g).x 10300 ∧ Solvent (q'.view Ex.g).x.p.boxes := by
  obtain ⟨q', R, _⟩ := Ex.run
  exact ⟨q', R, (C20_tokens_conserved R 10300 Ex.nextFree Ex.nextFree ⟨_, Ex.held, rfl⟩ ⟨_, Ex.held, rfl⟩).1,
    (C20_solvent R Ex.inRange Ex.solvent Ex.solvent).1⟩

set_option maxRecDepth 20000 in
/-- A transfer of 100 moves them from the balance to the pending transfers. -/
example : ∃ q', runCalls (accHost mapStore Ex.env) [Ex.transfer] (Ex.pair Ex.g) = some q' ∧
    inFlight q'.x.transfers = 100 ∧ (q'.x.p.boxes.metas 7).map Meta.balance = some 9900 := ⟨_, rfl, rfl, rfl⟩

/-! ## C21 -/

/-- **Ejecting.** When a call makes an account disappear, the account was another one, its balance went to
the caller, no other account was touched, nothing of it is left, and writing the sandbox back deletes it. -/
theorem C21_eject_moves_balance_partial {c : Nat × VM} (R : Run g D host env [c] q q') (e : Nat) (em : Meta)
    (h1 : (q.view g).x.p.boxes.metas e = some em) (h2 : (q'.view g).x.p.boxes.metas e = none) :
    e ≠ host ∧
    (∃ m, (q.view g).x.p.boxes.metas host = some m ∧
      (q'.view g).x.p.boxes.metas host = some { m with balance := m.balance + em.balance }) ∧
    (∀ s, s ≠ host → s ≠ e → (q'.view g).x.p.boxes.metas s = (q.view g).x.p.boxes.metas s) ∧
    (q'.view g).x.transfers = (q.view g).x.transfers ∧
    (∀ k, (q'.view g).x.p.boxes.storage e k = none) ∧ (∀ k, (q'.view g).x.p.boxes.preimages e k = none) ∧
    (∀ k, (q'.view g).x.p.boxes.lookups e k = none) ∧
    applyMeta g q'.x.p.boxes e = some none := by
  have O := R.after.2.sx.orphans e h2
  have A := (apply_view R.after.1.x R.after.2.sx.orphans e).1
  have A' : applyMeta g q'.x.p.boxes e = some none := A.trans (congrArg some h2)
  have hh : (q.view g).x.host = host := R.inv.hx
  have upd_live : ∀ {f : Nat → Option Meta} {m' : Meta}, f e = some em → upd f (q.view g).x.host (some m') e = none → False := by
    intro f m' hf h
    rw [upd_apply] at h
    split at h
    · cases h
    · rw [hf] at h; cases h
  rcases R.step with d | st
  · rw [d, h1] at h2; cases h2
  · generalize hx : (q.view g).x = x at *
    generalize hx' : (q'.view g).x = x' at *
    cases st with
    | same _ hb _ _ _ => rw [hb, h1] at h2; cases h2
    | write => exact (upd_live h1 h2).elim
    | upgrade => exact (upd_live h1 h2).elim
    | solicit => exact (upd_live h1 h2).elim
    | resolicit => have h2 : x.p.boxes.metas e = none := h2; rw [h1] at h2; cases h2
    | drop => exact (upd_live h1 h2).elim
    | unavail => have h2 : x.p.boxes.metas e = none := h2; rw [h1] at h2; cases h2
    | cycle => have h2 : x.p.boxes.metas e = none := h2; rw [h1] at h2; cases h2
    | pay => exact (upd_live h1 h2).elim
    | create m id nm key next =>
      have h2 : upd (upd x.p.boxes.metas x.host _) id (some nm) e = none := h2
      rw [upd_apply] at h2
      split at h2
      · cases h2
      · exact (upd_live h1 h2).elim
    | eject m e' em' key a b hm he hne hcode hi hk hl hx2 hov =>
      have h3 : upd (upd x.p.boxes.metas x.host (some { m with balance := m.balance + em'.balance })) e' none e = none := h2
      by_cases c : e = e'
      · subst c
        rw [h1] at he; cases he
        refine ⟨hh ▸ hne, ⟨m, hh ▸ hm, ?_⟩, ?_, rfl, O.1, O.2.1, O.2.2, A'⟩
        · show upd (upd x.p.boxes.metas x.host _) e none host = _
          rw [upd_apply, if_neg (fun c => hne (c.symm.trans hh.symm)), upd_apply, if_pos hh.symm]
        · intro s hs1 hs2
          show upd (upd x.p.boxes.metas x.host _) e none s = _
          rw [upd_apply, if_neg hs2, upd_apply, if_neg (fun c => hs1 (c.trans hh))]
      · rw [upd_apply, if_neg c] at h3
        exact (upd_live h1 h3).elim

/-- The example run ends with the ejection of service 8, and its 300 tokens with service 7. -/
example : ∃ m q', Run Ex.g (· = 7) 7 Ex.env [Ex.eject] m q' ∧ (m.view Ex.g).x.p.boxes.metas 8 = some Ex.meta8 ∧
    (q'.view Ex.g).x.p.boxes.metas 8 = none ∧ applyMeta Ex.g q'.x.p.boxes 8 = some none := by
  obtain ⟨q', R, e⟩ := Ex.run
  obtain ⟨m, R1, R2⟩ := Run.split (cs := [Ex.write]) (ds := [Ex.eject]) R
  have e1 : m.view Ex.g = { x := Ex.ctx Ex.g1, y := Ex.ctx Ex.g } := by
    have h := R1.maps
    rw [runCalls_cons (s := (Ex.pair []).view Ex.g) Ex.call1] at h
    exact (Option.some.inj h).symm
  have h1 : (m.view Ex.g).x.p.boxes.metas 8 = some Ex.meta8 := by rw [e1]; rfl
  have h2 : (q'.view Ex.g).x.p.boxes.metas 8 = none := by rw [e]; rfl
  exact ⟨m, q', R2, h1, h2, (C21_eject_moves_balance_partial R2 8 _ h1 h2).2.2.2.2.2.2.2⟩

set_option maxRecDepth 20000 in
/-- **Duplicated tokens, first way.** If the ejected service has run earlier in the same block, its balance
(350) goes to the ejecting service and the account also survives with its committed balance (300):
10000 + 350 tokens become 10350 + 300. Missing from C21: ejecting a service that has run in the block. -/
theorem C21_eject_after_running_mints_partial :
    ∃ q', runCalls (accHost (boxStore Ex.g) Ex.env) [Ex.eject] (Ex.pair Ex.ran8) = some q' ∧
      ((view Ex.g Ex.ran8).metas 7).map Meta.balance = some 10000 ∧ ((view Ex.g Ex.ran8).metas 8).map Meta.balance = some 350 ∧
      (applyMeta Ex.g q'.x.p.boxes 7).map (Option.map Meta.balance) = some (some 10350) ∧
      (applyMeta Ex.g q'.x.p.boxes 8).map (Option.map Meta.balance) = some (some 300) :=
  ⟨_, rfl, rfl, rfl, rfl, rfl⟩

/-- Memory whose first 32 octets are service 7 as a code hash; `zeros` is at 64. -/
def Ex.memHost : Mem := { Ex.mem with data := hostAsHash 7 ++ List.replicate 224 0 }
def Ex.hvm (r7 r8 r9 r10 r11 r12 : Nat) : VM := { Ex.vm r7 r8 r9 r10 r11 r12 with mem := Ex.memHost }
def Ex.ejectH : Nat × VM := (21, Ex.hvm 8 64 0 0 0 0)
def Ex.createH : Nat × VM := (18, Ex.hvm 0 3 0 0 0 8)

set_option maxRecDepth 20000 in
/-- **Duplicated tokens, second way.** A registrar ejects service 8, creates it again with its own
identifier as code hash and the same request, and ejects it again at once: the expired request of the
first account still shows through. The second ejection drops the sandbox, so the committed account
comes back; the registrar gains its 300 tokens each time and can repeat this. -/
theorem C21_registrar_mints_partial :
    ∃ q', runCalls (accHost (boxStore Ex.g) Ex.env) [Ex.ejectH, Ex.createH, Ex.ejectH] (Ex.pair []) = some q' ∧
      (applyMeta Ex.g q'.x.p.boxes 7).map (Option.map Meta.balance) = some (some 10300) ∧
      (applyMeta Ex.g q'.x.p.boxes 8).map (Option.map Meta.balance) = some (some 300) ∧
      ∃ q'', runCalls (accHost (boxStore Ex.g) Ex.env)
          [Ex.ejectH, Ex.createH, Ex.ejectH, Ex.ejectH, Ex.createH, Ex.ejectH] (Ex.pair []) = some q'' ∧
        (applyMeta Ex.g q''.x.p.boxes 7).map (Option.map Meta.balance) = some (some 10600) ∧
        (applyMeta Ex.g q''.x.p.boxes 8).map (Option.map Meta.balance) = some (some 300) :=
  ⟨_, rfl, rfl, rfl, _, rfl, rfl, rfl⟩

/-! ## C22 -/

/-- **The reserved identifier.** Through any calls the identifier kept for the next new account is public
(at least `2^16`, below `2^32 - 2^8`) and not in use, in both contexts. -/
theorem C22_next_id_free (R : Run g D host env cs q q') (Fx : NextFree (q.view g).x) (Fy : NextFree (q.view g).y) :
    NextFree (q'.view g).x ∧ NextFree (q'.view g).y :=
  R.keeps Fx Fy fun _ _ h _ _ _ st => st.next h

/-- **New accounts.** An account that a call makes appear has the reserved identifier, public and free, or
an identifier below `2^16` that was free, for a caller that is the registrar. No call touches the metadata
of a third account except to remove it. -/
theorem C22_created_id_fresh {c : Nat × VM} (R : Run g D host env [c] q q') (F : NextFree (q.view g).x) (s : Nat) :
    ((q.view g).x.p.boxes.metas s = none → ((q'.view g).x.p.boxes.metas s).isSome →
      (s = (q.view g).x.nextId ∧ Public s) ∨ (s < MIN_ID ∧ host = (q.view g).x.p.registrar.current)) ∧
    (∀ m, (q.view g).x.p.boxes.metas s = some m → s ≠ host →
      (q'.view g).x.p.boxes.metas s = some m ∨ (q'.view g).x.p.boxes.metas s = none) := by
  have hh : (q.view g).x.host = host := R.inv.hx
  rcases R.step with d | st
  · rw [d]
    exact ⟨(fun h h' => by rw [h] at h'; cases h'), fun m h _ => .inl h⟩
  · generalize hx : (q.view g).x = x at *
    generalize hx' : (q'.view g).x = x' at *
    have one : ∀ {m' m : Meta}, x.p.boxes.metas x.host = some m → ∀ a : Global,
        a.metas = upd x.p.boxes.metas x.host (some m') →
        (x.p.boxes.metas s = none → (a.metas s).isSome → s = x.nextId ∧ Public s ∨ s < MIN_ID ∧ host = x.p.registrar.current) ∧
        (∀ m, x.p.boxes.metas s = some m → s ≠ host → a.metas s = some m ∨ a.metas s = none) := by
      intro m' m hm a ha
      rw [ha, upd_apply]
      constructor
      · intro h h'
        split at h'
        · rename_i c; rw [c, hm] at h; cases h
        · rw [h] at h'; cases h'
      · intro m h hne
        rw [if_neg (fun c => hne (c.trans hh))]; exact .inl h
    have none' : ∀ a : Global, a.metas = x.p.boxes.metas →
        (x.p.boxes.metas s = none → (a.metas s).isSome → s = x.nextId ∧ Public s ∨ s < MIN_ID ∧ host = x.p.registrar.current) ∧
        (∀ m, x.p.boxes.metas s = some m → s ≠ host → a.metas s = some m ∨ a.metas s = none) := by
      intro a ha
      rw [ha]
      exact ⟨(fun h h' => by rw [h] at h'; cases h'), fun m h _ => .inl h⟩
    cases st with
    | same _ hb _ _ _ => exact none' _ (congrArg Global.metas hb)
    | write m k v hm _ => exact one hm _ rfl
    | upgrade m _ _ _ hm => exact one hm _ rfl
    | solicit m _ hm => exact one hm _ rfl
    | resolicit => exact none' _ rfl
    | drop m _ _ hm => exact one hm _ rfl
    | unavail => exact none' _ rfl
    | cycle => exact none' _ rfl
    | pay m _ _ hm => exact one hm _ rfl
    | create m id nm key next hm hc ht hi ho hlen hid hgr =>
      show (x.p.boxes.metas s = none → (upd (upd x.p.boxes.metas x.host (some { m with balance := m.balance - nm.balance })) id (some nm) s).isSome → _) ∧
        (∀ m', x.p.boxes.metas s = some m' → s ≠ host →
          upd (upd x.p.boxes.metas x.host (some { m with balance := m.balance - nm.balance })) id (some nm) s = some m' ∨
          upd (upd x.p.boxes.metas x.host (some { m with balance := m.balance - nm.balance })) id (some nm) s = none)
      have O := one hm { x.p.boxes with metas := upd x.p.boxes.metas x.host (some { m with balance := m.balance - nm.balance }) } rfl
      by_cases c : s = id
      · subst c
        rcases hid with ⟨h1, h2, h3, _⟩ | ⟨h1, _⟩
        · exact ⟨fun _ _ => .inr ⟨h1, hh ▸ h2⟩, fun m' h _ => by rw [h3] at h; cases h⟩
        · exact ⟨fun _ _ => .inl ⟨h1, h1 ▸ F.1⟩, fun m' h _ => by rw [h1, F.2] at h; cases h⟩
      · rw [upd_apply, if_neg c]; exact O
    | eject m e em key a b hm he hne hcode hi hk hl hx2 hov =>
      show (x.p.boxes.metas s = none → (upd (upd x.p.boxes.metas x.host _) e none s).isSome → _) ∧
        (∀ m', x.p.boxes.metas s = some m' → s ≠ host → upd (upd x.p.boxes.metas x.host _) e none s = some m' ∨
          upd (upd x.p.boxes.metas x.host _) e none s = none)
      have O := one hm { x.p.boxes with metas := upd x.p.boxes.metas x.host (some { m with balance := m.balance + em.balance }) } rfl
      by_cases c : s = e
      · rw [upd_apply, if_pos c]; exact ⟨(fun _ h => by cases h), fun _ _ _ => .inr rfl⟩
      · rw [upd_apply, if_neg c]; exact O

/-- The plain maps after creating service 70000. -/
def Ex.g3 : Global := created (Ex.ctx Ex.g) Ex.meta7 70000 (newMeta Ex.zeros 211 5 6 0 10 20 7) (Ex.zeros, 10)

set_option maxRecDepth 20000 in
theorem Ex.call3 : accHost mapStore Ex.env Ex.create.1 Ex.create.2 (Ex.pair Ex.g) =
    (.ok (ret 70000), { x := { Ex.ctx Ex.g3 with nextId := 70042 }, y := Ex.ctx Ex.g }) := by rfl

theorem Ex.inRange3 : Ex.g3.InRange := by
  refine Ex.inRange_usage fun s => ?_
  by_cases c : s = 70000
  · subst c
    refine ⟨2, 91, usage_one (a := Ex.g3) (key := (Ex.zeros, 10)) (ts := []) (fun k => rfl) (fun k => ?_), by decide, by decide⟩
    show upd2 (clear Ex.g.lookups 70000) 70000 (Ex.zeros, 10) (some []) 70000 k = _
    rw [upd2_self, upd_apply]; rfl
  · have hs : Ex.g3.storage s = Ex.g.storage s := clear_other _ c
    have hl : Ex.g3.lookups s = Ex.g.lookups s := (upd2_other _ c _ _).trans (clear_other _ c)
    by_cases c7 : s = 7
    · subst c7; exact ⟨1, 37, usage_congr hs hl Ex.usage7, by decide, by decide⟩
    · by_cases c8 : s = 8
      · subst c8; exact ⟨2, 84, usage_congr hs hl Ex.usage8, by decide, by decide⟩
      · refine ⟨0, 0, usage_none (fun k => ?_) (fun k => ?_), by decide, by decide⟩
        · rw [hs]; simp [Ex.g, c7]
        · rw [hl]; simp [Ex.g, c8]

/-- Creating a service gives it the identifier 70000 and reserves 70042. -/
example : ∃ q', Run Ex.g (· = 7) 7 Ex.env [Ex.create] (Ex.pair []) q' ∧ Ex.g.metas 70000 = none ∧
    ((q'.view Ex.g).x.p.boxes.metas 70000).isSome ∧ (q'.view Ex.g).x.nextId = 70042 ∧ NextFree (q'.view Ex.g).x := by
  have T : Throughout (accHost mapStore Ex.env) (fun p => p.x.p.boxes.InRange) [Ex.create] (Ex.pair Ex.g) :=
    Ex.throughout_cons Ex.call3 Ex.inRange (Ex.throughout_nil Ex.inRange3)
  have B : BeforeEach (accHost mapStore Ex.env) (CallOk Ex.g (· = 7)) [Ex.create] (Ex.pair Ex.g) :=
    Ex.before_cons Ex.call3 ⟨(fun _ => rfl), (fun h => absurd h (by decide))⟩ Ex.before_nil
  have h := (calls_sim Ex.orphans [Ex.create] (Ex.pair []) Ex.inv Ex.good T B).1
  have h2 : runCalls (accHost mapStore Ex.env) [Ex.create] (Ex.pair Ex.g) =
      some { x := { Ex.ctx Ex.g3 with nextId := 70042 }, y := Ex.ctx Ex.g } := by
    rw [runCalls_cons Ex.call3]; rfl
  cases hr : runCalls (accHost (boxStore Ex.g) Ex.env) [Ex.create] (Ex.pair []) with
  | none => rw [hr] at h; exact absurd (h.trans h2) (by simp)
  | some q' =>
    rw [hr] at h
    have e := Option.some.inj (h.trans h2)
    have R : Run Ex.g (· = 7) 7 Ex.env [Ex.create] (Ex.pair []) q' := ⟨Ex.orphans, Ex.inv, Ex.good, T, B, hr⟩
    exact ⟨q', R, rfl, by rw [e]; rfl, by rw [e], (C22_next_id_free R Ex.nextFree Ex.nextFree).1⟩

/-- The `k`-th identifier after `id` on the ring of public identifiers. -/
def onRing (id k : Nat) : Nat := (id - MIN_ID + k) % RING + MIN_ID

theorem onRing_zero {id : Nat} (h : Public id) : onRing id 0 = id := by
  unfold onRing
  obtain ⟨h1, h2⟩ := h
  rw [Nat.mod_eq_of_lt (by omega)]; omega

theorem onRing_succ (id k : Nat) : onRing (onRing id 1) k = onRing id (k + 1) := by
  unfold onRing
  rw [Nat.add_sub_cancel, Nat.mod_add_mod, Nat.add_assoc, Nat.add_comm 1 k]

theorem onRing_public (id k : Nat) : Public (onRing id k) := by
  unfold onRing Public
  have : (id - MIN_ID + k) % RING < RING := Nat.mod_lt _ (by decide)
  omega

theorem checkLoop_iff {β : Type} (S : Store β) (bs : β) : ∀ n id, Public id → ∀ r, checkLoop S bs n id = some r ↔
    ∃ k, k < n ∧ r = onRing id k ∧ S.existsEff bs r = false ∧ ∀ j, j < k → S.existsEff bs (onRing id j) = true := by
  intro n
  induction n with
  | zero => intro id _ r; exact ⟨(fun h => by cases h), fun ⟨k, hk, _⟩ => absurd hk (by omega)⟩
  | succ n ih =>
    intro id hp r
    unfold checkLoop
    cases hu : S.existsEff bs id with
    | false =>
      simp only [Bool.not_false, if_true]
      constructor
      · intro h; cases h
        exact ⟨0, by omega, (onRing_zero hp).symm, hu, fun j hj => absurd hj (by omega)⟩
      · rintro ⟨k, hk, hr, hf, ha⟩
        cases k with
        | zero => rw [hr, onRing_zero hp]
        | succ k =>
          have := ha 0 (by omega)
          rw [onRing_zero hp, hu] at this; cases this
    | true =>
      simp only [Bool.not_true, Bool.false_eq_true, if_false]
      rw [show (id - MIN_ID + 1) % RING + MIN_ID = onRing id 1 from rfl, ih _ (onRing_public id 1) r]
      constructor
      · rintro ⟨k, hk, hr, hf, ha⟩
        refine ⟨k + 1, by omega, by rw [hr, onRing_succ], hf, fun j hj => ?_⟩
        cases j with
        | zero => rw [onRing_zero hp]; exact hu
        | succ j => rw [← onRing_succ]; exact ha j (by omega)
      · rintro ⟨k, hk, hr, hf, ha⟩
        cases k with
        | zero => rw [hr, onRing_zero hp, hu] at hf; cases hf
        | succ k =>
          exact ⟨k, by omega, by rw [hr, onRing_succ], hf, fun j hj => by rw [onRing_succ]; exact ha (j + 1) (by omega)⟩

/-- **Search.** From a public identifier the search on the sandbox returns the first identifier in ring
order that no account of the current state uses, and it loops for ever exactly when every public
identifier is in use. -/
theorem C22_search_first_free (bs : Boxes) (I : Inv g D host bs) (id : Nat) (hp : Public id) :
    (∀ r, checkId (boxStore g) bs id = some r ↔ ∃ k, k < RING ∧ r = onRing id k ∧ (view g bs).metas r = none ∧
      ∀ j, j < k → (view g bs).metas (onRing id j) ≠ none) ∧
    (checkId (boxStore g) bs id = none ↔ ∀ r, Public r → (view g bs).metas r ≠ none) := by
  have hu : ∀ s, (boxStore g).existsEff bs s = ((view g bs).metas s).isSome := fun s => existsEff_sim I s
  have h1 : ∀ r, checkId (boxStore g) bs id = some r ↔ ∃ k, k < RING ∧ r = onRing id k ∧ (view g bs).metas r = none ∧
      ∀ j, j < k → (view g bs).metas (onRing id j) ≠ none := by
    intro r
    refine (checkLoop_iff (boxStore g) bs RING id hp r).trans ?_
    simp only [hu, Option.isSome_eq_false_iff, Option.isNone_iff_eq_none, Option.isSome_iff_ne_none]
  refine ⟨h1, ?_⟩
  constructor
  · intro hn r hr hf
    -- the distance from `id` to `r` along the ring
    have hk : ∃ k, k < RING ∧ onRing id k = r := by
      refine ⟨(r - MIN_ID + (RING - (id - MIN_ID))) % RING, Nat.mod_lt _ (by decide), ?_⟩
      obtain ⟨p1, p2⟩ := hp
      obtain ⟨r1, r2⟩ := hr
      unfold onRing
      rw [Nat.add_mod_mod, show id - MIN_ID + (r - MIN_ID + (RING - (id - MIN_ID))) = r - MIN_ID + RING by omega,
        Nat.add_mod_right, Nat.mod_eq_of_lt (by omega)]
      omega
    obtain ⟨k, hk, e⟩ := hk
    -- take the first free one
    have least : ∀ n, (∃ k, k ≤ n ∧ k < RING ∧ (view g bs).metas (onRing id k) = none) →
        ∃ k, k < RING ∧ (view g bs).metas (onRing id k) = none ∧ ∀ j, j < k → (view g bs).metas (onRing id j) ≠ none := by
      intro n
      induction n with
      | zero =>
        rintro ⟨k, h0, h1, h2⟩
        exact ⟨k, h1, h2, fun j hj => absurd hj (by omega)⟩
      | succ n ih =>
        rintro ⟨k, h0, h1, h2⟩
        by_cases c : ∃ k, k ≤ n ∧ k < RING ∧ (view g bs).metas (onRing id k) = none
        · exact ih c
        · refine ⟨k, h1, h2, fun j hj hf => c ⟨j, by omega, by omega, hf⟩⟩
    obtain ⟨k', a1, a2, a3⟩ := least k ⟨k, Nat.le_refl _, hk, by rw [e]; exact hf⟩
    have := (h1 _).2 ⟨k', a1, rfl, a2, a3⟩
    rw [hn] at this; cases this
  · intro ha
    cases hc : checkId (boxStore g) bs id with
    | none => rfl
    | some r =>
      obtain ⟨k, _, e, hf, _⟩ := (h1 r).1 hc
      exact absurd hf (ha r (e ▸ onRing_public id k))

/-- With 70000 taken in the sandbox the search from it gives 70001. -/
def Ex.taken : Boxes := [(70000, newBox Ex.meta8)]
set_option maxRecDepth 20000 in
example : checkId (boxStore Ex.g) Ex.taken 70000 = some 70001 ∧ checkId (boxStore Ex.g) [] (MIN_ID + RING - 1) = some (MIN_ID + RING - 1) := by
  exact ⟨rfl, rfl⟩
example : Inv Ex.g (fun s => s = 7) 7 Ex.taken := by
  refine ⟨fun s b h => ?_, rfl, rfl⟩
  by_cases c : s = 70000
  · subst c; cases h
    exact ⟨by decide, (fun _ => rfl), (by decide), (by decide), (fun k e h => by cases h), (fun k e h => by cases h), (fun k e h => by cases h)⟩
  · simp [Ex.taken, boxGet, Ne.symm c] at h

end Fastroll.Svc
