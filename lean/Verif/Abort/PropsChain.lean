import Verif.Abort.Props
import Verif.Node.Props

/-! # Properties: a chain that a service stops (C73) -/
namespace Fastroll.Abort
open Fastroll.Svc (Global integrate integrateOne)
open Fastroll.Node (Par State Blk Blocks Realm world run)
variable {σ η ρ : Type} {N : Par σ η ρ}

namespace Ex
/-- The accounts of `Node.Ex`, but the code of service 5, the registrar, has three octets and does not load. -/
def g5 : Global := { Delta.ExA.g with preimages := fun s h => if s = 5 ∧ h = Svc.ExM.codeHash 5 then some [5, 5, 5] else Delta.ExA.g.preimages s h }
def s0 : State Nat (List Nat) := { Node.Ex.s0 with world := ⟨g5, { Node.Ex.realm.χ with always := [] }⟩ }
theorem broken : Broken s0.world.accounts Node.Ex.N.mach 5 := ⟨_, [5, 5, 5], rfl, by decide, .inr ⟨_, rfl, by decide, rfl⟩⟩

/-- A report is guaranteed, but never available. -/
def quiet : Blocks Nat Nat := [Node.Ex.b1, Node.Ex.b2, Node.Ex.b4].map fun b => (none, b)
/-- It becomes available. -/
def stuck : Blocks Nat Nat := [Node.Ex.b1, Node.Ex.b2, Node.Ex.b3].map fun b => (none, b)
def stopped : State Nat (List Nat) × List (List Acc.Report) := match run Node.Ex.N quiet s0 with | .ok x => x | .error _ => (s0, [])
theorem isOk : (match run Node.Ex.N quiet s0 with | .ok _ => true | .error _ => false) = true := by decide +kernel
theorem ran : run Node.Ex.N quiet s0 = .ok stopped := by
  have h := isOk
  unfold stopped
  split
  · assumption
  · rename_i e; rw [e] at h; cases h
end Ex

/-- The service has a privilege that makes it run in every round. -/
def Holds (χ : Delta.Chi) (s : Nat) : Prop := s ∈ χ.assign ∨ s = χ.registrar ∨ s = χ.designate ∨ s = χ.manager

theorem integrate_keeps {env : Svc.Env} {s : Nat} {h d : List UInt8} : ∀ (es : List (Nat × List UInt8)) (a : Global), a.preimages s h = some d →
    (integrate env es a).preimages s h = some d
  | [], _, k => k
  | e :: es, a, k => by
    show (integrate env es (integrateOne env a e)).preimages s h = _
    apply integrate_keeps es
    rcases Svc.integrateOne_cases (env := env) a e with c | ⟨c1, _, c⟩
    · rw [c]; exact k
    · rw [c]
      by_cases q : s = e.1 ∧ h = env.hash e.2
      · rw [q.1, q.2, c1] at k; cases k
      · exact (Node.upd2_off _ _ q).trans k

theorem writeBack_nil (g : Global) : Node.writeBack g [] = g := Node.writeBack_eq ⟨fun _ => rfl, fun _ _ => rfl, fun _ _ => rfl, fun _ _ => rfl⟩

theorem stage_stops {g : Stf.Stage σ η ρ Realm (List (Nat × List UInt8))} {s : Nat} (hK : N.K.total < 2 ^ 64) (hok : g.Ok (world N)) (hb : Broken g.before.world.accounts N.mach s)
    (hs : (∃ gas, (s, gas) ∈ g.before.world.χ.always) ∨ Holds g.before.world.χ s) :
    (¬ ∃ gas, (s, gas) ∈ g.before.world.χ.always) ∧ g.acc = [] ∧ Broken (g.after (world N)).world.accounts N.mach s ∧ (g.after (world N)).world.χ = g.before.world.χ := by
  obtain ⟨Rs, v, E, _, ids, _, he⟩ := Node.stage_executed hK hok
  cases Rs with
  | cons R Rs =>
    obtain ⟨e1, e2, _⟩ := E.chain
    refine (broken_no_round (E.faithful R (List.mem_cons_self ..)) (by rw [e1]; rfl) e2 hb ?_).elim
    rcases hs with ⟨gas, k⟩ | k
    · exact .inl (.inr (.inr ⟨_, by rw [E.always.1]; exact k, rfl⟩))
    · refine .inr ?_
      unfold Delta.Round.Privileged
      rw [e1]; exact k
  | nil =>
    have ha : g.before.world.χ.always = [] := E.always
    have hv := E.chain.1
    refine ⟨fun ⟨gas, k⟩ => (by rw [ha] at k; cases k), E.reports.symm, ?_, ?_⟩
    · obtain ⟨m, blob, k1, k2, k3⟩ := hb
      have hbx : v.boxes = [] := by rw [← hv]; rfl
      rw [hbx, writeBack_nil] at he
      rw [he]
      have hm : ∃ m', (Delta.stamp g.blk.slot ids g.before.world.accounts).metas s = some m' ∧ m'.codeHash = m.codeHash := by
        rcases Delta.stamp_meta (slot := g.blk.slot) (ids := ids) (a := g.before.world.accounts) s with e | e
        · exact ⟨m, by rw [e, k1], rfl⟩
        · exact ⟨{ m with lastAcc := g.blk.slot }, by rw [e, k1]; rfl, rfl⟩
      obtain ⟨m', hm', hc⟩ := hm
      exact ⟨m', blob, by rw [Delta.integrate_metas]; exact hm', by rw [hc]; exact integrate_keeps _ _ k2, k3⟩
    · rw [E.privileges, ← hv]; rfl

/-- **C73, a defect**: once the code of the manager, the registrar, the designate or an assigner cannot be run, no
report is ever accumulated again: in every chain of blocks from there on, however long and whatever it brings, each
block accumulates nothing and leaves the privileges as they are, so the service cannot be replaced either. -/
theorem C73_chain_stops {bs : Blocks σ η} {s s' : State η ρ} {accs : List (List Acc.Report)} {x : Nat} (hK : N.K.total < 2 ^ 64) (h : run N bs s = .ok (s', accs))
    (hb : Broken s.world.accounts N.mach x) (hx : x ∈ s.world.χ.assign ∨ x = s.world.χ.registrar ∨ x = s.world.χ.designate ∨ x = s.world.χ.manager) :
    (∀ acc ∈ accs, acc = []) ∧ s'.world.χ = s.world.χ ∧ Broken s'.world.accounts N.mach x := by
  obtain ⟨l, hl, e1, e2⟩ := Stf.run_stages.1 h
  subst e2
  clear h e1
  induction l generalizing s with
  | nil => unfold Stf.Linked at hl; subst hl; exact ⟨by simp, rfl, hb⟩
  | cons g l ih =>
    obtain ⟨e, hok, hl⟩ := hl
    subst e
    obtain ⟨_, k2, k3, k4⟩ := stage_stops hK hok hb (.inr hx)
    obtain ⟨i1, i2, i3⟩ := ih k3 (by rw [k4]; exact hx) hl
    refine ⟨fun acc ha => ?_, i2.trans k4, i3⟩
    rcases List.mem_cons.1 ha with c | c
    · rw [c]; exact k2
    · exact i1 acc c

example : (∀ acc ∈ Ex.stopped.2, acc = []) ∧ Ex.stopped.2.length = 3 ∧ (match run Node.Ex.N Ex.stuck Ex.s0 with | .ok _ => none | .error e => some (match e with | .accumulate => true | _ => false)) = some true :=
  ⟨(C73_chain_stops (by decide) Ex.ran Ex.broken (.inr (.inl rfl))).1, by decide +kernel, by decide +kernel⟩

/-- **C73, a defect**: once the code of an always-accumulate service cannot be run, no block is accepted. -/
theorem C73_always_stops {anc : Option (Nat → Nat → Bool)} {s s' : State η ρ} {b : Blk σ η} {acc : List Acc.Report} {x gas : Nat} (hK : N.K.total < 2 ^ 64)
    (hb : Broken s.world.accounts N.mach x) (hx : (x, gas) ∈ s.world.χ.always) : Stf.block (world N) anc s b ≠ .ok (s', acc) := by
  intro h
  obtain ⟨g, hok, _, e1, _⟩ := Stf.accepted h
  subst e1
  exact (stage_stops hK hok hb (.inl ⟨gas, hx⟩)).1 ⟨gas, hx⟩

example (b : Blk Nat Nat) (s' : State Nat (List Nat)) (acc : List Acc.Report) :
    Stf.block (world Node.Ex.N) none { Ex.s0 with world := { Ex.s0.world with χ := { Ex.s0.world.χ with always := [(5, 40)] } } } b ≠ .ok (s', acc) :=
  C73_always_stops (x := 5) (gas := 40) (by decide) Ex.broken (by simp)

end Fastroll.Abort
