import Verif.Svc.LemmasRun

/-!
# C36: the accumulation sandbox is the state it stands for

`mapStore` (Spec.lean) keeps accounts as plain maps; `view g bs` is the meaning of the sandbox `bs`
over the committed state `g`. The theorems say that host calls on the sandbox answer exactly as on
the plain maps and that writing the sandbox back yields exactly its meaning.
-/
namespace Fastroll.Svc
open Fastroll.Pvm

/-- **Sequences of host calls.** For every committed state, every sandbox over it (whatever earlier
calls and rounds left in it) and every sequence of host calls with every machine state, the calls
on the sandbox abort exactly when they abort on plain maps and otherwise leave a sandbox that means
what the plain maps became. `D` are the services whose metadata lost its snapshot. -/
theorem C36_calls_refine (g : Global) (D : Nat → Prop) (host : Nat) (env : Env) (cs : List (Nat × VM)) (q : Pair Boxes)
    (O : g.NoOrphans) (I : PairInv g D host q) (S : Good (q.view g))
    (T : Throughout (accHost mapStore env) (fun p => p.x.p.boxes.InRange) cs (q.view g))
    (B : BeforeEach (accHost mapStore env) (CallOk g D) cs (q.view g)) :
    (runCalls (accHost (boxStore g) env) cs q).map (Pair.view g) = runCalls (accHost mapStore env) cs (q.view g) ∧
    ∀ q', runCalls (accHost (boxStore g) env) cs q = some q' → PairInv g D host q' :=
  ⟨(calls_sim O cs q I S T B).1, fun q' h => ((calls_sim O cs q I S T B).2 q' h).1⟩

/-- A write followed by an eject meets the hypotheses, and both leave their mark. -/
example : (runCalls (accHost (boxStore Ex.g) Ex.env) [Ex.write, Ex.eject] (Ex.pair [])).map (Pair.view Ex.g) =
    runCalls (accHost mapStore Ex.env) [Ex.write, Ex.eject] (Ex.pair Ex.g) ∧
    runCalls (accHost mapStore Ex.env) [Ex.write, Ex.eject] (Ex.pair Ex.g) = some { x := Ex.ctx Ex.g2, y := Ex.ctx Ex.g } :=
  ⟨(C36_calls_refine Ex.g (· = 7) 7 Ex.env [Ex.write, Ex.eject] (Ex.pair []) Ex.orphans Ex.inv Ex.good Ex.range Ex.callOk).1, by
    rw [runCalls_cons Ex.call1, runCalls_cons Ex.call2]; rfl⟩

set_option maxRecDepth 20000 in
example : Ex.g2.metas 8 = none ∧ (Ex.g2.metas 7).map Meta.balance = some 10300 ∧ Ex.g2.storage 7 [1] = some [9, 8, 7] := by decide

/-- **The answer to each call** (exit, registers, gas, memory) is that of the plain maps. -/
theorem C36_answers_refine (g : Global) (D : Nat → Prop) (host : Nat) (env : Env) (h : Nat) (vm : VM) (q : Pair Boxes)
    (O : g.NoOrphans) (I : PairInv g D host q) (S : (q.view g).x.p.boxes.Sound) (C : CallOk g D h vm (q.view g)) :
    (accHost (boxStore g) env h vm q).1 = (accHost mapStore env h vm (q.view g)).1 ∧
    (accHost (boxStore g) env h vm q).2.view g = (accHost mapStore env h vm (q.view g)).2 :=
  ⟨(acc_sim O env h vm q I S C).1, (acc_sim O env h vm q I S C).2.1.symm⟩

set_option maxRecDepth 20000 in
example : (accHost (boxStore Ex.g) Ex.env Ex.write.1 Ex.write.2 (Ex.pair [])).1 = .ok (ret 2) ∧
    CallOk Ex.g (· = 7) Ex.write.1 Ex.write.2 (Ex.pair Ex.g) :=
  ⟨rfl, Ex.callOk.here⟩

/-- **Programs.** A program run with the sandbox ends exactly as with the plain maps (same exit, same
machine), and unless it was aborted its sandbox means what the plain maps became. -/
theorem C36_programs_refine (g : Global) (D : Nat → Prop) (host : Nat) (env : Env) (p : Prog) (fuel n : Nat) (vm : VM)
    (q : Pair Boxes) (O : g.NoOrphans) (I : PairInv g D host q) (S : Good (q.view g))
    (T : Throughout (accHost mapStore env) (fun p => p.x.p.boxes.InRange)
      (extTrace p (accHost mapStore env) fuel n vm (q.view g)) (q.view g))
    (B : BeforeEach (accHost mapStore env) (CallOk g D)
      (extTrace p (accHost mapStore env) fuel n vm (q.view g)) (q.view g)) :
    (extRun p (accHost (boxStore g) env) fuel n vm q).1 = (extRun p (accHost mapStore env) fuel n vm (q.view g)).1 ∧
    (extRun p (accHost (boxStore g) env) fuel n vm q).2.1 = (extRun p (accHost mapStore env) fuel n vm (q.view g)).2.1 ∧
    ((∀ e, (extRun p (accHost (boxStore g) env) fuel n vm q).1 ≠ .done (.error e)) →
      (extRun p (accHost (boxStore g) env) fuel n vm q).2.2.view g =
        (extRun p (accHost mapStore env) fuel n vm (q.view g)).2.2) := by
  obtain ⟨h1, h2, h3⟩ := extRun_sim (host := accHost (boxStore g) env) (host' := accHost mapStore env)
    (R := fun q q' => q' = q.view g ∧ PairInv g D host q ∧ Good q') (Ok := CallOk g D)
    (P := fun p => p.x.p.boxes.InRange) (by
      intro h vm s s' R P C
      obtain ⟨r1, r2, r3⟩ := R
      subst r1
      obtain ⟨e1, e2, e3⟩ := acc_sim O env h vm s r2 r3.sx C
      refine ⟨e1, fun r hr P' => ⟨e2, e3, ?_⟩⟩
      exact acc_good r3 P P' (Prod.ext hr rfl)) p fuel n vm q (q.view g) ⟨rfl, I, S⟩ B T
  exact ⟨h1, h2, fun he => (h3 he).1.symm⟩

/-- The program `ecalli 4; trap`, and the one call it makes. -/
def Ex.prog : Prog :=
  match loadParts [10, 4, 0] [true, false, true] [] with
  | .ok p => p
  | .error _ => ⟨[], [], [], [], [], [], []⟩
def Ex.progCall : Nat × VM := (4, { Ex.write.2 with gas := 999 })

set_option maxRecDepth 20000 in
theorem Ex.progTrace : extTrace Ex.prog (accHost mapStore Ex.env) 10 10 Ex.write.2 (Ex.pair Ex.g) = [Ex.progCall] := by rfl

set_option maxRecDepth 20000 in
/-- The program writes and panics; the hypotheses hold of its trace. -/
example : (extRun Ex.prog (accHost (boxStore Ex.g) Ex.env) 10 10 Ex.write.2 (Ex.pair [])).1 = .done (.ok .panic) ∧
    (extRun Ex.prog (accHost (boxStore Ex.g) Ex.env) 10 10 Ex.write.2 (Ex.pair [])).2.2.view Ex.g =
      { x := Ex.ctx Ex.g1, y := Ex.ctx Ex.g } := by
  have c : accHost mapStore Ex.env Ex.progCall.1 Ex.progCall.2 (Ex.pair Ex.g) = (.ok (ret 2), { x := Ex.ctx Ex.g1, y := Ex.ctx Ex.g }) := rfl
  have h := C36_programs_refine Ex.g (· = 7) 7 Ex.env Ex.prog 10 10 Ex.write.2 (Ex.pair []) Ex.orphans Ex.inv Ex.good
    (by show Throughout _ _ (extTrace Ex.prog (accHost mapStore Ex.env) 10 10 Ex.write.2 (Ex.pair Ex.g)) _
        rw [Ex.progTrace]; exact Ex.throughout_cons c Ex.inRange (Ex.throughout_nil Ex.inRange1))
    (by show BeforeEach _ _ (extTrace Ex.prog (accHost mapStore Ex.env) 10 10 Ex.write.2 (Ex.pair Ex.g)) _
        rw [Ex.progTrace]
        exact Ex.before_cons c ⟨(fun h => absurd h (by decide)), (fun h => absurd h (by decide))⟩ Ex.before_nil)
  have h1 : (extRun Ex.prog (accHost (boxStore Ex.g) Ex.env) 10 10 Ex.write.2 (Ex.pair [])).1 = .done (.ok .panic) := by rfl
  exact ⟨h1, h.2.2 (by rw [h1]; simp)⟩

/-- **Writing back.** Applying a sandbox to the committed state succeeds for every account and key and
yields exactly what the sandbox means; keys it does not mention keep their committed value. -/
theorem C36_commit_is_view (g : Global) (D : Nat → Prop) (host : Nat) (bs : Boxes) (I : Inv g D host bs)
    (O : (view g bs).NoOrphans) (s : Nat) :
    applyMeta g bs s = some ((view g bs).metas s) ∧
    (∀ k, applyStorage g bs s k = some ((view g bs).storage s k)) ∧
    (∀ k, applyPreimages g bs s k = some ((view g bs).preimages s k)) ∧
    (∀ k, applyLookups g bs s k = some ((view g bs).lookups s k)) :=
  apply_view I O s

/-- The sandbox left by the example calls and what it writes back. -/
def Ex.after : Pair Boxes := (runCalls (accHost (boxStore Ex.g) Ex.env) [Ex.write, Ex.eject] (Ex.pair [])).getD (Ex.pair [])

set_option maxRecDepth 20000 in
example : applyMeta Ex.g Ex.after.x.p.boxes 8 = some none ∧ applyStorage Ex.g Ex.after.x.p.boxes 7 [1] = some (some [9, 8, 7]) ∧
    applyLookups Ex.g Ex.after.x.p.boxes 8 (Ex.zeros, 3) = some none ∧ applyStorage Ex.g Ex.after.x.p.boxes 7 [2] = some none := by decide

/-- **From the first call to the committed state.** Start a service on a fresh sandbox, make any calls,
write the result back: the state becomes what the calls do to plain maps. -/
theorem C36_first_round_end_to_end (g : Global) (env : Env) (cs : List (Nat × VM)) (x : Ctx Boxes) (q' : Pair Boxes)
    (hx : x.p.boxes = []) (ha : (g.metas x.host).isSome) (S : g.Sound)
    (T : Throughout (accHost mapStore env) (fun p => p.x.p.boxes.InRange) cs (Pair.view g ⟨x, x⟩))
    (B : BeforeEach (accHost mapStore env) (fun h vm q => h = 18 → g.metas (newTarget vm q.x) = none) cs (Pair.view g ⟨x, x⟩))
    (hr : runCalls (accHost (boxStore g) env) cs ⟨x, x⟩ = some q') :
    ∃ p, runCalls (accHost mapStore env) cs (Pair.view g ⟨x, x⟩) = some p ∧
      ∀ s, applyMeta g q'.x.p.boxes s = some (p.x.p.boxes.metas s) ∧
        (∀ k, applyStorage g q'.x.p.boxes s k = some (p.x.p.boxes.storage s k)) ∧
        (∀ k, applyPreimages g q'.x.p.boxes s k = some (p.x.p.boxes.preimages s k)) ∧
        (∀ k, applyLookups g q'.x.p.boxes s k = some (p.x.p.boxes.lookups s k)) := by
  have hv : (x.view g).p.boxes = g := by
    show view g x.p.boxes = g
    rw [hx]; rfl
  have I : Inv g (· = x.host) x.host x.p.boxes := by
    rw [hx]; exact ⟨(fun s b h => by cases h), rfl, ha⟩
  have hv' : (x.view g).host = x.host := rfl
  have G : Good (Pair.view g ⟨x, x⟩) := by
    refine ⟨?_, ?_, ?_, ?_⟩ <;> simp only [Pair.view, hv, hv'] <;> assumption
  have B' : BeforeEach (accHost mapStore env) (CallOk g (· = x.host)) cs (Pair.view g ⟨x, x⟩) := by
    intro pre c hp s' hs
    refine ⟨B pre c hp s' hs, fun _ e _ he => ?_⟩
    have : s'.x.host = x.host := by
      have := runCalls_inv (host := accHost mapStore env) (I := fun q => q.x.host = x.host ∧ (q.x.p.boxes.metas q.x.host).isSome)
        (P := fun _ => True) (by
          intro c s s' r hI _ _ hc
          rcases acc_step hI.2 hc with d | ⟨_, d⟩ | ⟨d1, d2⟩
          · subst d; exact hI
          · subst d; exact hI
          · exact ⟨d2.host_eq.trans hI.1, d2.alive hI.2⟩) pre _ ⟨rfl, G.ax⟩ (fun _ _ _ _ => trivial) s' hs
      exact this.1
    rw [← this]; exact he
  obtain ⟨e1, e2⟩ := calls_sim S.orphans cs ⟨x, x⟩ ⟨I, I, rfl, rfl⟩ G T B'
  rw [hr] at e1
  refine ⟨q'.view g, e1.symm, fun s => ?_⟩
  exact apply_view (e2 q' hr).1.x (e2 q' hr).2.sx.orphans s

set_option maxRecDepth 20000 in
example : ∃ q', runCalls (accHost (boxStore Ex.g) Ex.env) [Ex.write, Ex.eject] ⟨Ex.ctx [], Ex.ctx []⟩ = some q' ∧
    ∃ p, runCalls (accHost mapStore Ex.env) [Ex.write, Ex.eject] (Ex.pair Ex.g) = some p ∧
      ∀ s, applyMeta Ex.g q'.x.p.boxes s = some (p.x.p.boxes.metas s) := by
  obtain ⟨q', hq⟩ : ∃ q', runCalls (accHost (boxStore Ex.g) Ex.env) [Ex.write, Ex.eject] ⟨Ex.ctx [], Ex.ctx []⟩ = some q' :=
    ⟨_, rfl⟩
  refine ⟨q', hq, ?_⟩
  obtain ⟨p, h1, h2⟩ := C36_first_round_end_to_end Ex.g Ex.env [Ex.write, Ex.eject] (Ex.ctx []) q' rfl rfl Ex.sound Ex.range
    (fun pre c hp s' hs => (Ex.callOk pre c hp s' hs).1) hq
  exact ⟨p, h1, fun s => (h2 s).1⟩

/-! ## Where the sandbox differs from the state it stands for

`CallOk` cannot be dropped: both of its conditions are needed, and neither is checked by the code. -/

/-- Create the service 8 again. -/
def Ex.recreate : Nat × VM := (18, Ex.vm 0 10 5 6 0 8)

set_option maxRecDepth 20000 in
/-- **Re-creation.** A registrar that ejects a committed account and creates one under the same identifier
leaves a sandbox whose reads still answer with the entries of the ejected account, and which cannot be
written back: the block is aborted. Missing from C36: creation under an ejected identifier. -/
theorem C36_recreate_ejected_partial :
    ∃ q', runCalls (accHost (boxStore Ex.g) Ex.env) [Ex.eject, Ex.recreate] (Ex.pair []) = some q' ∧
      (view Ex.g q'.x.p.boxes).lookups 8 (Ex.zeros, 3) = some [1, 2] ∧ applyMeta Ex.g q'.x.p.boxes 8 = none ∧
      ∃ p, runCalls (accHost mapStore Ex.env) [Ex.eject, Ex.recreate] (Ex.pair Ex.g) = some p ∧
        p.x.p.boxes.lookups 8 (Ex.zeros, 3) = none ∧ (p.x.p.boxes.metas 8).isSome :=
  ⟨_, rfl, rfl, rfl, _, rfl, rfl, rfl⟩

set_option maxRecDepth 20000 in
/-- **Eject after running.** When the ejected service has run earlier in the block its sandbox is dropped
instead of marked removed, so the committed account shows through. Missing from C36: ejecting a service
whose metadata lost its snapshot. -/
theorem C36_eject_after_running_partial :
    ∃ q', runCalls (accHost (boxStore Ex.g) Ex.env) [Ex.eject] (Ex.pair Ex.ran8) = some q' ∧
      (view Ex.g q'.x.p.boxes).metas 8 = some Ex.meta8 ∧
      ∃ p, runCalls (accHost mapStore Ex.env) [Ex.eject] ((Ex.pair Ex.ran8).view Ex.g) = some p ∧ p.x.p.boxes.metas 8 = none :=
  ⟨_, rfl, rfl, _, rfl, rfl⟩

end Fastroll.Svc
