import Verif.Svc.LemmasInv
import Verif.Svc.LemmasRef

/-! # Lemmas: from one host call to sequences of calls and to programs -/
namespace Fastroll.Svc
open Fastroll.Pvm

section generic
variable {σ : Type} {host : Host σ} {c : Nat × VM} {cs : List (Nat × VM)} {s s1 s' : σ} {r : HostResult}

theorem runCalls_cons (h : host c.1 c.2 s = (.ok r, s1)) : runCalls host (c :: cs) s = runCalls host cs s1 := by
  simp only [runCalls, h]

theorem Throughout.tail {P : σ → Prop} (h : host c.1 c.2 s = (.ok r, s1)) (H : Throughout host P (c :: cs) s) :
    Throughout host P cs s1 := by
  intro pre hp s' hs
  exact H (c :: pre) (by simpa using hp) s' (by rw [runCalls_cons h]; exact hs)

theorem Throughout.here {P : σ → Prop} (H : Throughout host P cs s) : P s := H [] (List.nil_prefix) s rfl

theorem BeforeEach.tail {P : Nat → VM → σ → Prop} (h : host c.1 c.2 s = (.ok r, s1)) (H : BeforeEach host P (c :: cs) s) :
    BeforeEach host P cs s1 := by
  intro pre d hp s' hs
  exact H (c :: pre) d (by simpa using hp) s' (by rw [runCalls_cons h]; exact hs)

theorem BeforeEach.here {P : Nat → VM → σ → Prop} (H : BeforeEach host P (c :: cs) s) : P c.1 c.2 s :=
  H [] c (by simp) s rfl

/-- An invariant of the calls that do not abort. -/
theorem runCalls_inv {I : σ → Prop} {P : σ → Prop}
    (step : ∀ (c : Nat × VM) s s' r, I s → P s → P s' → host c.1 c.2 s = (.ok r, s') → I s') :
    ∀ cs s, I s → Throughout host P cs s → ∀ s', runCalls host cs s = some s' → I s' := by
  intro cs
  induction cs with
  | nil => intro s hI _ s' h; cases h; exact hI
  | cons c cs ih =>
    intro s hI H s' h
    cases hc : host c.1 c.2 s with
    | mk r s1 =>
      cases r with
      | error e => simp only [runCalls, hc] at h; cases h
      | ok r =>
        rw [runCalls_cons hc] at h
        exact ih s1 (step c s s1 r hI H.here (H.tail hc).here hc) (H.tail hc) s' h

/-- What `extIter` does with the answer of a call. -/
def afterCall (p : Prog) (vm : VM) : Except VmErr HostResult → ExtOut × VM
  | .error e => (.done (.error e), vm)
  | .ok res =>
    if res.exit = .cont then
      match vm.applyHost res with
      | (.error e, vm) => (.done (.error e), vm)
      | (.ok post, vm) =>
        if post < 0 then (.done (.ok .outOfGas), vm) else (.continue, { vm with pc := p.nextPc vm.pc })
    else if res.exit = .panic ∨ res.exit = .halt ∨ res.exit = .outOfGas then
      match vm.applyHost res with
      | (.error e, vm) => (.done (.error e), vm)
      | (.ok _, vm) => (.done (.ok res.exit), vm)
    else (.done (.error .invalidExit), vm)

def noCall (p : Prog) (fuel : Nat) (vm : VM) : ExtOut × VM :=
  match runFuel p fuel vm with
  | (none, vm) => (.stuck, vm)
  | (some r, vm) => (.done r, vm)

theorem noCall_ne (p : Prog) (fuel : Nat) (vm : VM) : (noCall p fuel vm).1 ≠ .continue := by
  unfold noCall
  cases runFuel p fuel vm with
  | mk o vm' => cases o <;> simp

theorem extIter_eq (p : Prog) (host : Host σ) (fuel : Nat) (vm : VM) (s : σ) :
    (∃ c, nextCall p fuel vm = some c ∧ extIter p host fuel vm s =
      ((afterCall p c.2 (host c.1 c.2 s).1).1, (afterCall p c.2 (host c.1 c.2 s).1).2, (host c.1 c.2 s).2)) ∨
    (nextCall p fuel vm = none ∧ extIter p host fuel vm s = ((noCall p fuel vm).1, (noCall p fuel vm).2, s)) := by
  unfold extIter nextCall noCall
  cases hr : runFuel p fuel vm with
  | mk o vm' =>
    cases o with
    | none => right; exact ⟨rfl, rfl⟩
    | some r =>
      cases r with
      | error e => right; exact ⟨rfl, rfl⟩
      | ok ex =>
        cases ex with
        | hostCall n =>
          left
          refine ⟨(n, vm'), rfl, ?_⟩
          simp only
          cases hh : host n vm' s with
          | mk r s1 =>
            cases r with
            | error e => rfl
            | ok r =>
              simp only [afterCall]
              by_cases c1 : r.exit = .cont
              · simp only [if_pos c1]
                cases hv : vm'.applyHost r with
                | mk a b => cases a with
                  | error e => rfl
                  | ok post => simp only; split <;> rfl
              · simp only [if_neg c1]
                by_cases c2 : r.exit = .panic ∨ r.exit = .halt ∨ r.exit = .outOfGas
                · simp only [if_pos c2]
                  cases hv : vm'.applyHost r with
                  | mk a b => cases a <;> rfl
                · simp only [if_neg c2]
        | _ => right; exact ⟨rfl, rfl⟩

/-- A program that is not aborted leaves the context its calls leave. -/
theorem extRun_trace (p : Prog) (fuel : Nat) : ∀ n vm (s : σ) out vm' s', extRun p host fuel n vm s = (out, vm', s') →
    (∀ e, out ≠ .done (.error e)) → runCalls host (extTrace p host fuel n vm s) s = some s' := by
  intro n
  induction n with
  | zero => intro vm s out vm' s' h _; cases h; rfl
  | succ n ih =>
    intro vm s out vm' s' h hne
    unfold extRun at h
    unfold extTrace
    rcases extIter_eq p host fuel vm s with ⟨c, h1, h2⟩ | ⟨h1, h2⟩
    · rw [h1]
      rw [h2] at h ⊢
      simp only at h ⊢
      cases hc : host c.1 c.2 s with
      | mk r s1 =>
        rw [hc] at h
        cases r with
        | error e => simp only [afterCall] at h; cases h; exact absurd rfl (hne e)
        | ok r =>
          rw [runCalls_cons hc]
          cases ha : afterCall p c.2 (.ok r) with
          | mk o vm1 =>
            rw [ha] at h
            simp only [ha] at h ⊢
            cases o with
            | «continue» => exact ih vm1 s1 out vm' s' h hne
            | done r' => cases h; rfl
            | stuck => cases h; rfl
    · rw [h1]
      rw [h2] at h
      have := noCall_ne p fuel vm
      cases hn : noCall p fuel vm with
      | mk o vm1 =>
        rw [hn] at h this
        cases o with
        | «continue» => exact absurd rfl this
        | done r' => cases h; rfl
        | stuck => cases h; rfl

/-- Two tables that answer alike drive a program alike. -/
theorem extRun_sim {σ' : Type} {host' : Host σ'} {R : σ → σ' → Prop} {Ok : Nat → VM → σ' → Prop} {P : σ' → Prop}
    (hsim : ∀ h vm s s', R s s' → P s' → Ok h vm s' →
      (host h vm s).1 = (host' h vm s').1 ∧ (∀ r, (host' h vm s').1 = .ok r → P (host' h vm s').2 → R (host h vm s).2 (host' h vm s').2))
    (p : Prog) (fuel : Nat) : ∀ n vm (s : σ) (s' : σ'), R s s' →
    BeforeEach host' Ok (extTrace p host' fuel n vm s') s' → Throughout host' P (extTrace p host' fuel n vm s') s' →
    (extRun p host fuel n vm s).1 = (extRun p host' fuel n vm s').1 ∧
    (extRun p host fuel n vm s).2.1 = (extRun p host' fuel n vm s').2.1 ∧
    ((∀ e, (extRun p host fuel n vm s).1 ≠ .done (.error e)) →
      R (extRun p host fuel n vm s).2.2 (extRun p host' fuel n vm s').2.2) := by
  intro n
  induction n with
  | zero => intro vm s s' h _ _; exact ⟨rfl, rfl, fun _ => h⟩
  | succ n ih =>
    intro vm s s' hR hB hT
    unfold extRun
    unfold extTrace at hB hT
    rcases extIter_eq p host' fuel vm s' with ⟨c, h1, h2⟩ | ⟨h1, h2⟩
    · rcases extIter_eq p host fuel vm s with ⟨c', h1', h2'⟩ | ⟨h1', _⟩
      · rw [h1] at h1'; cases h1'
        rw [h1] at hB hT
        simp only [h2, h2'] at hB hT ⊢
        obtain ⟨e1, e2⟩ := hsim c.1 c.2 s s' hR hT.here hB.here
        rw [e1]
        cases hc : host' c.1 c.2 s' with
        | mk r s1' =>
          rw [hc] at e2 hB hT
          cases r with
          | error e => simp only [afterCall]; exact ⟨trivial, trivial, fun h => absurd rfl (h e)⟩
          | ok r =>
            have hT1 := hT.tail hc
            have hB1 := hB.tail hc
            have e3 := e2 r rfl hT1.here
            cases ha : afterCall p c.2 (.ok r) with
            | mk o vm1 =>
              simp only [ha] at hT1 hB1 e3 ⊢
              cases o with
              | «continue» => exact ih vm1 _ s1' e3 hB1 hT1
              | done r' => exact ⟨rfl, rfl, fun _ => e3⟩
              | stuck => exact ⟨rfl, rfl, fun _ => e3⟩
      · rw [h1] at h1'; cases h1'
    · rcases extIter_eq p host fuel vm s with ⟨c', h1', h2'⟩ | ⟨h1', h2'⟩
      · rw [h1] at h1'; cases h1'
      · rw [h2, h2']
        have := noCall_ne p fuel vm
        cases hn : noCall p fuel vm with
        | mk o vm1 =>
          rw [hn] at this
          cases o with
          | «continue» => exact absurd rfl this
          | done r' => exact ⟨rfl, rfl, fun _ => hR⟩
          | stuck => exact ⟨rfl, rfl, fun _ => hR⟩

end generic

/-! ## The table of `accumulate` -/

/-- A call other than `checkpoint` acts on the regular context only. -/
theorem accHost_cases {β : Type} (S : Store β) (env : Env) (h : Nat) (vm : VM) (q : Pair β) :
    ((accHost S env h vm q).2 = q) ∨
    (h = 17 ∧ (accHost S env h vm q).2 = { q with y := q.x }) ∨
    (∃ f, accFn S h = some f ∧ accHost S env h vm q = ((f env vm q.x).1, { q with x := (f env vm q.x).2 })) := by
  unfold accHost
  by_cases c : h = 17
  · rw [if_pos c]
    unfold hostCheckpoint
    split
    · exact .inl rfl
    · exact .inr (.inl ⟨c, rfl⟩)
  · rw [if_neg c]
    cases hf : accFn S h with
    | none => exact .inl rfl
    | some f => exact .inr (.inr ⟨f, rfl, rfl⟩)

/-- What holds of the plain maps during an accumulation. -/
structure Good (q : Pair Global) : Prop where
  sx : q.x.p.boxes.Sound
  sy : q.y.p.boxes.Sound
  ax : (q.x.p.boxes.metas q.x.host).isSome
  ay : (q.y.p.boxes.metas q.y.host).isSome

variable {env : Env} {q q' : Pair Global} {h : Nat} {vm : VM} {r : HostResult}

theorem acc_step (G : (q.x.p.boxes.metas q.x.host).isSome) (hc : accHost mapStore env h vm q = (.ok r, q')) :
    (q' = q) ∨ (h = 17 ∧ q' = { q with y := q.x }) ∨ (q'.y = q.y ∧ Step env true q.x q'.x) := by
  rcases accHost_cases mapStore env h vm q with c | ⟨c1, c2⟩ | ⟨f, c1, c2⟩
  · rw [hc] at c; exact .inl c
  · rw [hc] at c2; exact .inr (.inl ⟨c1, c2⟩)
  · right; right
    rw [hc] at c2
    obtain ⟨m, hm⟩ := Option.isSome_iff_exists.1 G
    have st := step_of_fn (env := env) (vm := vm) hm c1
    injection c2 with d1 d2
    rw [← d1] at st
    subst d2
    exact ⟨rfl, st⟩

theorem acc_good (G : Good q) (R : q.x.p.boxes.InRange) (R' : q'.x.p.boxes.InRange)
    (hc : accHost mapStore env h vm q = (.ok r, q')) : Good q' := by
  rcases acc_step G.ax hc with c | ⟨_, c⟩ | ⟨c1, c2⟩
  · subst c; exact G
  · subst c; exact ⟨G.sx, G.sx, G.ax, G.ax⟩
  · exact ⟨c2.sound G.sx R R', c1 ▸ G.sy, c2.alive G.ax, c1 ▸ G.ay⟩

theorem eject_ok {x : Ctx Global} (S : x.p.boxes.Sound) (vm : VM) : EjectOk vm x := by
  intro hash e m ts _ _ hm hi hl
  exact only_request S hm hi (by rw [hl]; rfl)

/-- One call on the sandbox and on the plain maps. -/
theorem acc_sim {g : Global} {D : Nat → Prop} {host : Nat} (O : g.NoOrphans) (env : Env) (h : Nat) (vm : VM)
    (q : Pair Boxes) (I : PairInv g D host q) (S : (q.view g).x.p.boxes.Sound) (C : CallOk g D h vm (q.view g)) :
    (accHost (boxStore g) env h vm q).1 = (accHost mapStore env h vm (q.view g)).1 ∧
    (accHost mapStore env h vm (q.view g)).2 = (accHost (boxStore g) env h vm q).2.view g ∧
    PairInv g D host (accHost (boxStore g) env h vm q).2 := by
  have Hx : Inv g D q.x.host q.x.p.boxes := by rw [I.hx]; exact I.x
  unfold accHost
  by_cases c : h = 17
  · simp only [if_pos c]
    unfold hostCheckpoint
    split
    · exact ⟨rfl, rfl, I⟩
    · exact ⟨rfl, rfl, I.x, I.x, I.hx, I.hx⟩
  · simp only [if_neg c]
    have hf : h = 18 → g.metas (newTarget vm q.x) = none := C.1
    rcases fn_sim O env vm q.x Hx h hf (fun c => ⟨eject_ok S vm, C.2 c⟩) with ⟨e1, e2⟩ | ⟨f, f', e1, e2, e3, e4, e5, e6⟩
    · rw [e1, e2]; exact ⟨rfl, rfl, I⟩
    · rw [e1, e2]
      have hx : (q.view g).x = q.x.view g := rfl
      simp only [hx, e3, e4]
      refine ⟨trivial, rfl, ?_, I.y, ?_, I.hy⟩
      · rw [I.hx] at e5; exact e5
      · rw [e6]; exact I.hx

end Fastroll.Svc
