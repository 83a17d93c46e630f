import Verif.Svc.Ex

/-! # Lemmas: carrying invariants of the plain maps over to the sandbox and to programs -/
namespace Fastroll.Svc
open Fastroll.Pvm

/-- An accumulation of `host` over the committed state `g`: the calls `cs` take the sandboxes `q` to `q'`.
The conditions are those of the refinement C36. -/
structure Run (g : Global) (D : Nat → Prop) (host : Nat) (env : Env) (cs : List (Nat × VM)) (q q' : Pair Boxes) : Prop where
  orphans : g.NoOrphans
  inv : PairInv g D host q
  good : Good (q.view g)
  range : Throughout (accHost mapStore env) (fun p => p.x.p.boxes.InRange) cs (q.view g)
  ok : BeforeEach (accHost mapStore env) (CallOk g D) cs (q.view g)
  ran : runCalls (accHost (boxStore g) env) cs q = some q'

variable {g : Global} {D : Nat → Prop} {host : Nat} {env : Env}

theorem calls_sim (O : g.NoOrphans) : ∀ cs (q : Pair Boxes), PairInv g D host q → Good (q.view g) →
    Throughout (accHost mapStore env) (fun p => p.x.p.boxes.InRange) cs (q.view g) →
    BeforeEach (accHost mapStore env) (CallOk g D) cs (q.view g) →
    (runCalls (accHost (boxStore g) env) cs q).map (Pair.view g) = runCalls (accHost mapStore env) cs (q.view g) ∧
    ∀ q', runCalls (accHost (boxStore g) env) cs q = some q' → PairInv g D host q' ∧ Good (q'.view g) := by
  intro cs
  induction cs with
  | nil => intro q I G _ _; exact ⟨rfl, fun q' h => by cases h; exact ⟨I, G⟩⟩
  | cons c cs ih =>
    intro q I G T B
    obtain ⟨e1, e2, e3⟩ := acc_sim O env c.1 c.2 q I G.sx B.here
    cases hb : accHost (boxStore g) env c.1 c.2 q with
    | mk r q1 =>
      cases hm : accHost mapStore env c.1 c.2 (q.view g) with
      | mk r' q1' =>
        rw [hb, hm] at e1 e2
        rw [hb] at e3
        simp only at e1 e2 e3
        subst e1 e2
        cases r with
        | error e => simp only [runCalls, hb, hm]; exact ⟨rfl, fun q' h => by cases h⟩
        | ok r =>
          rw [runCalls_cons hb, runCalls_cons hm]
          have T1 := T.tail hm
          exact ih q1 e3 (acc_good G T.here T1.here hm) T1 (B.tail hm)

variable {cs : List (Nat × VM)} {q q' : Pair Boxes}

theorem Run.maps (R : Run g D host env cs q q') :
    runCalls (accHost mapStore env) cs (q.view g) = some (q'.view g) := by
  rw [← (calls_sim R.orphans cs q R.inv R.good R.range R.ok).1, R.ran]; rfl

theorem Run.after (R : Run g D host env cs q q') : PairInv g D host q' ∧ Good (q'.view g) :=
  (calls_sim R.orphans cs q R.inv R.good R.range R.ok).2 q' R.ran

theorem Run.last (R : Run g D host env cs q q') : (q'.view g).x.p.boxes.InRange :=
  R.range cs (List.prefix_refl _) _ R.maps

/-- A property of both contexts kept by every effect of a call on the regular one. -/
theorem Run.keeps {P : Ctx Global → Prop} (R : Run g D host env cs q q') (hx : P (q.view g).x) (hy : P (q.view g).y)
    (step : ∀ x x', P x → x.p.boxes.Sound → x.p.boxes.InRange → x'.p.boxes.InRange → Step env true x x' → P x') :
    P (q'.view g).x ∧ P (q'.view g).y := by
  have := runCalls_inv (host := accHost mapStore env) (I := fun q => Good q ∧ P q.x ∧ P q.y)
    (P := fun p => p.x.p.boxes.InRange) (by
      intro c s s' r I r1 r2 hc
      refine ⟨acc_good I.1 r1 r2 hc, ?_⟩
      rcases acc_step I.1.ax hc with d | ⟨_, d⟩ | ⟨d1, d2⟩
      · subst d; exact I.2
      · subst d; exact ⟨I.2.1, I.2.1⟩
      · exact ⟨step _ _ I.2.1 I.1.sx r1 r2 d2, d1 ▸ I.2.2⟩) cs (q.view g) ⟨R.good, hx, hy⟩ R.range _ R.maps
  exact this.2

theorem runCalls_append {σ : Type} {h : Host σ} {cs ds : List (Nat × VM)} {s : σ} :
    runCalls h (cs ++ ds) s = (runCalls h cs s).bind (runCalls h ds) := by
  induction cs generalizing s with
  | nil => rfl
  | cons c cs ih =>
    show runCalls h (c :: (cs ++ ds)) s = _
    simp only [runCalls]
    cases hc : h c.1 c.2 s with
    | mk r s1 => cases r <;> simp [ih]

/-- The part of a run before some of its calls, and the rest. -/
theorem Run.split {cs ds : List (Nat × VM)} (R : Run g D host env (cs ++ ds) q q') :
    ∃ m, Run g D host env cs q m ∧ Run g D host env ds m q' := by
  have hr := R.ran
  rw [runCalls_append] at hr
  cases hm : runCalls (accHost (boxStore g) env) cs q with
  | none => rw [hm] at hr; cases hr
  | some m =>
    rw [hm] at hr
    have R1 : Run g D host env cs q m :=
      ⟨R.orphans, R.inv, R.good, fun pre hp => R.range pre (hp.trans (List.prefix_append _ _)),
        fun pre c hp => R.ok pre c (hp.trans (List.prefix_append _ _)), hm⟩
    refine ⟨m, R1, R.orphans, R1.after.1, R1.after.2, ?_, ?_, hr⟩
    · intro pre hp s' hs
      refine R.range (cs ++ pre) ((List.prefix_append_right_inj cs).2 hp) s' ?_
      rw [runCalls_append, R1.maps]; exact hs
    · intro pre c hp s' hs
      refine R.ok (cs ++ pre) c ?_ s' ?_
      · rw [List.append_assoc]; exact (List.prefix_append_right_inj cs).2 hp
      · rw [runCalls_append, R1.maps]; exact hs

/-- The effect of one call. -/
theorem Run.step {c : Nat × VM} (R : Run g D host env [c] q q') :
    (q'.view g).x = (q.view g).x ∨ Step env true (q.view g).x (q'.view g).x := by
  have h := R.maps
  simp only [runCalls] at h
  cases hc : accHost mapStore env c.1 c.2 (q.view g) with
  | mk r s1 =>
    rw [hc] at h
    cases r with
    | error e => cases h
    | ok r =>
      cases Option.some.inj h
      rcases acc_step R.good.ax hc with d | ⟨_, d⟩ | ⟨_, d⟩
      · left; rw [d]
      · left; rw [d]
      · exact .inr d

/-- The run of a program that is not aborted. -/
theorem run_of_program {p : Prog} {fuel n : Nat} {vm vm' : VM} {out : ExtOut} (O : g.NoOrphans) (I : PairInv g D host q)
    (G : Good (q.view g)) (h : extRun p (accHost (boxStore g) env) fuel n vm q = (out, vm', q'))
    (hne : ∀ e, out ≠ .done (.error e))
    (T : Throughout (accHost mapStore env) (fun p => p.x.p.boxes.InRange)
      (extTrace p (accHost (boxStore g) env) fuel n vm q) (q.view g))
    (B : BeforeEach (accHost mapStore env) (CallOk g D) (extTrace p (accHost (boxStore g) env) fuel n vm q) (q.view g)) :
    Run g D host env (extTrace p (accHost (boxStore g) env) fuel n vm q) q q' :=
  ⟨O, I, G, T, B, extRun_trace p fuel n vm q out vm' q' h hne⟩

/-- The example calls are a run. -/
theorem Ex.run : ∃ q', Run Ex.g (· = 7) 7 Ex.env [Ex.write, Ex.eject] (Ex.pair []) q' ∧
    q'.view Ex.g = { x := Ex.ctx Ex.g2, y := Ex.ctx Ex.g } := by
  have h := (calls_sim Ex.orphans [Ex.write, Ex.eject] (Ex.pair []) Ex.inv Ex.good Ex.range Ex.callOk).1
  have h2 : runCalls (accHost mapStore Ex.env) [Ex.write, Ex.eject] (Ex.pair Ex.g) = some { x := Ex.ctx Ex.g2, y := Ex.ctx Ex.g } := by
    rw [runCalls_cons Ex.call1, runCalls_cons Ex.call2]; rfl
  cases hr : runCalls (accHost (boxStore Ex.g) Ex.env) [Ex.write, Ex.eject] (Ex.pair []) with
  | none => rw [hr] at h; exact absurd (h.trans h2) (by simp)
  | some q' =>
    rw [hr] at h
    exact ⟨q', ⟨Ex.orphans, Ex.inv, Ex.good, Ex.range, Ex.callOk, hr⟩, Option.some.inj (h.trans h2)⟩

end Fastroll.Svc
