import Verif.Delta.LemmasKeys
import Verif.Svc.LemmasRun

/-! # Lemmas: which accounts a service touches -/
namespace Fastroll.Delta
open Fastroll.Pvm Fastroll.Svc

/-- Between `a` and `b` the metadata of no account but that of `host` changed; some accounts may have been
created, where none was committed, and some ejected, none of them in `D`. -/
def Framed (g : Global) (D : Nat → Prop) (host : Nat) (a b : Global) : Prop :=
  ∀ s, s ≠ host → b.metas s = a.metas s ∨ (a.metas s = none ∧ g.metas s = none) ∨ (b.metas s = none ∧ ¬ D s)

variable {g a : Global} {D : Nat → Prop} {env : Env}

theorem step_some {x x' : Ctx Global} (st : Step env true x x') (F : NextFree x) {s : Nat} {m : Meta} (hs : s ≠ x.host)
    (h : x.p.boxes.metas s = some m) : x'.p.boxes.metas s = some m ∨ x'.p.boxes.metas s = none := by
  have F2 := F.2
  cases st with
  | same _ hb => rw [hb]; exact .inl h
  | create _ id _ _ _ _ _ _ _ _ _ hid =>
    simp only [Ctx.setBoxes, created, upd]
    by_cases c : s = id
    · subst c
      rcases hid with ⟨_, _, k, _⟩ | ⟨k, _⟩
      · rw [k] at h; cases h
      · rw [k, F2] at h; cases h
    · rw [if_neg c, if_neg hs]; exact .inl h
  | eject _ e =>
    simp only [Ctx.setBoxes, upd]
    by_cases c : s = e
    · rw [if_pos c]; exact .inr rfl
    · rw [if_neg c, if_neg hs]; exact .inl h
  | _ => simp only [Ctx.setBoxes, upd, if_neg hs]; exact .inl h

theorem call_framed {h : Nat} {vm : VM} {q q' : Pair Global} {r : HostResult} (hD : ∀ s, g.metas s = none → D s)
    (G : (q.x.p.boxes.metas q.x.host).isSome) (F : NextFree q.x) (C : CallOk g D h vm q)
    (hc : accHost mapStore env h vm q = (.ok r, q')) (fx : Framed g D q.x.host a q.x.p.boxes) :
    Framed g D q'.x.host a q'.x.p.boxes ∧ q'.x.host = q.x.host ∧ NextFree q'.x := by
  rcases acc_step G hc with c | ⟨_, c⟩ | ⟨_, c⟩
  · subst c; exact ⟨fx, rfl, F⟩
  · subst c; exact ⟨fx, rfl, F⟩
  · refine ⟨?_, c.host_eq, c.next F⟩
    rw [c.host_eq]
    intro s hs
    cases hx : q.x.p.boxes.metas s with
    | some m =>
      rcases step_some c F hs hx with e | e
      · rw [e, ← hx]; exact fx s hs
      · by_cases hE : h = 21 ∧ u32? vm 7 = some s
        · exact .inr (.inr ⟨e, C.2 hE.1 s hE.2 hs⟩)
        · have := (keeps_some s q.x.host).call (env := env) (vm := vm) (h := h) (q := q) (fun _ => trivial)
            (fun h1 e h2 _ h3 => hE ⟨h1, h3 ▸ h2⟩) (by rw [hx]; rfl)
          rw [hc] at this
          simp only at this
          rw [e] at this; cases this
    | none =>
      by_cases hE : h = 18 ∧ newTarget vm q.x = s
      · have hg : g.metas s = none := hE.2 ▸ C.1 hE.1
        refine .inr (.inl ⟨?_, hg⟩)
        rcases fx s hs with k | k | k
        · rw [← k, hx]
        · exact k.1
        · exact absurd (hD s hg) k.2
      · have := (keeps_none s q.x.host).call (env := env) (vm := vm) (h := h) (q := q) (fun h1 h2 => hE ⟨h1, h2⟩)
          (fun _ _ _ _ => trivial) hx
        rw [hc] at this
        simp only at this
        have e : q'.x.p.boxes.metas s = q.x.p.boxes.metas s := this.trans hx.symm
        rw [e]; exact fx s hs

theorem calls_framed (hD : ∀ s, g.metas s = none → D s) {host : Nat} : ∀ (cs : List (Nat × VM)) (q q' : Pair Global), Good q →
    Throughout (accHost mapStore env) (fun p => p.x.p.boxes.InRange) cs q → BeforeEach (accHost mapStore env) (CallOk g D) cs q →
    q.x.host = host → NextFree q.x → Framed g D host a q.x.p.boxes → Framed g D host a q.y.p.boxes →
    runCalls (accHost mapStore env) cs q = some q' → Framed g D host a q'.x.p.boxes ∧ Framed g D host a q'.y.p.boxes := by
  intro cs
  induction cs with
  | nil => intro q q' _ _ _ _ _ fx fy h; cases h; exact ⟨fx, fy⟩
  | cons c cs ih =>
    intro q q' G T B hh F fx fy h
    subst hh
    cases hc : accHost mapStore env c.1 c.2 q with
    | mk r q1 =>
      cases r with
      | error e => simp only [runCalls, hc] at h; cases h
      | ok r =>
        rw [runCalls_cons hc] at h
        obtain ⟨k1, k2, k3⟩ := call_framed hD G.ax F B.here hc fx
        have T1 := T.tail hc
        refine ih q1 q' (acc_good G T.here T1.here hc) T1 (B.tail hc) k2 k3 (k2 ▸ k1) ?_ h
        have := call_y mapStore env c.1 c.2 q
        rw [hc] at this
        rcases this with e | e
        · simp only at e; rw [e]; exact fy
        · simp only at e; rw [e]; exact fx

theorem call_host {β : Type} (S : Store β) (env : Env) (h : Nat) (vm : VM) (q : Pair β) : (accHost S env h vm q).2.x.host = q.x.host := by
  rcases accHost_cases S env h vm q with c | ⟨_, c⟩ | ⟨f, c1, c2⟩
  · rw [c]
  · rw [c]
  · rw [c2]; exact (keeps_fn c1 vm q.x).1

/-- What every call keeps, all of them do. -/
theorem calls_own {β : Type} {S : Store β} {P : β → Prop} {T E : Nat → Prop} {host : Nat} (K : Keeps S P T E host) (hT : ∀ s, T s)
    (hE : ∀ e, e ≠ host → E e) :
    ∀ (cs : List (Nat × VM)) (q q' : Pair β), q.x.host = host → P q.x.p.boxes → P q.y.p.boxes →
    runCalls (accHost S env) cs q = some q' → P q'.x.p.boxes ∧ P q'.y.p.boxes := by
  intro cs
  induction cs with
  | nil => intro q q' _ px py h; cases h; exact ⟨px, py⟩
  | cons c cs ih =>
    intro q q' hh px py h
    subst hh
    cases hc : accHost S env c.1 c.2 q with
    | mk r q1 =>
      cases r with
      | error e => simp only [runCalls, hc] at h; cases h
      | ok r =>
        rw [runCalls_cons hc] at h
        have k1 := call_host S env c.1 c.2 q
        have k2 := K.call (env := env) (vm := c.2) (h := c.1) (fun _ => hT _) (fun _ e _ h => hE e h) px
        have k3 := call_y S env c.1 c.2 q
        rw [hc] at k1 k2 k3
        refine ih q1 q' k1 k2 ?_ h
        rcases k3 with e | e
        · simp only at e; rw [e]; exact py
        · simp only at e; rw [e]; exact px

end Fastroll.Delta
