import Verif.Svc.LemmasHist
import Verif.Svc.PropsAcc
import Verif.Svc.ExMerge

/-!
# C17, C18: preimages given to accounts, and historical lookups

A preimage reaches an account by `provide`, entered when the round is merged (`provideAll`), or in the
block itself (`integrate`). A historical lookup (`lookupHist`) asks what was available at a past slot.
-/
namespace Fastroll.Svc
open Fastroll.Pvm

variable {g : Global} {D : Nat → Prop} {host : Nat} {env : Env} {cs : List (Nat × VM)} {q q' : Pair Boxes} {t : Nat}

/-! ## C17 -/

/-- **Provided preimages, exactly.** What the merge of a round does with the provided preimages is to give
them one after the other to the accounts: kept where the account exists and has the request open. -/
theorem C17_provide_exact (O : g.NoOrphans) {es : List (Nat × Bytes)} {bs bs' : Boxes}
    (H : ∀ s b, boxGet bs s = some b → BoxGood g D s b) (h : provideAll g env es bs = some bs') :
    view g bs' = es.foldl (given env) (view g bs) := (provideAll_good O es D bs bs' H h).1

private theorem given_cases (a : Global) (e : Nat × Bytes) : given env a e = a ∨
    (a.lookups e.1 (env.hash e.2, e.2.length % 2 ^ 32) = some [] ∧ given env a e = stored env a e.1 e.2) := by
  unfold given
  split
  · exact .inr ⟨‹_ ∧ _›.2, rfl⟩
  · exact .inl rfl

/-- From `a` to `b` each request is as it was; or it was open, is available from now on, and the account
holds octets of the requested hash and length, unless `env.hash` has a collision at hand. -/
def Entered (env : Env) (a b : Global) : Prop :=
  ∀ s k, b.lookups s k = a.lookups s k ∨ (a.lookups s k = some [] ∧ b.lookups s k = some [env.slot] ∧
    ∃ d, env.hash d = k.1 ∧ d.length % 2 ^ 32 = k.2 ∧ (b.preimages s k.1 = some d ∨ ∃ d', d' ≠ d ∧ env.hash d' = env.hash d))

private theorem stored_entered {a b : Global} {s : Nat} {d : Bytes} (H : Entered env a b)
    (hl : b.lookups s (env.hash d, d.length % U32) = some []) : Entered env a (stored env b s d) := by
  intro s' k
  rcases stored_lookups hl s' k with e | ⟨e1, e2, e3, e4⟩
  · rcases H s' k with f | ⟨f1, f2, d', f4, f5, f3⟩
    · exact .inl (e.trans f)
    · refine .inr ⟨f1, e.trans f2, d', f4, f5, ?_⟩
      rcases f3 with f3 | f3
      · by_cases c : s' = s ∧ k.1 = env.hash d
        · by_cases c2 : d = d'
          · left
            show upd2 b.preimages s (env.hash d) (some d) s' k.1 = _
            rw [c.1, c.2, upd2_self, c2]; simp [upd]
          · exact .inr ⟨d, c2, by rw [f4, c.2]⟩
        · left
          show upd2 b.preimages s (env.hash d) (some d) s' k.1 = _
          by_cases e : s' = s
          · subst e; rw [upd2_self]
            have : k.1 ≠ env.hash d := fun f => c ⟨rfl, f⟩
            simp [upd, this, f3]
          · rw [upd2_other _ e, f3]
      · exact .inr f3
  · rcases H s' k with f | ⟨_, f2, _⟩
    · exact .inr ⟨f ▸ e1, e2, d, by rw [e4], by rw [e4]; rfl, .inl e3⟩
    · rw [e1] at f2; cases f2

/-- **Provided preimages and requests.** Preimages provided in a round only make open requests available,
and the octets kept are the requested ones. -/
theorem C17_provide_enters (O : g.NoOrphans) {es : List (Nat × Bytes)} {bs bs' : Boxes}
    (H : ∀ s b, boxGet bs s = some b → BoxGood g D s b) (h : provideAll g env es bs = some bs') :
    Entered env (view g bs) (view g bs') := by
  rw [C17_provide_exact O H h]
  have : ∀ (es : List (Nat × Bytes)) b, Entered env (view g bs) b → Entered env (view g bs) (es.foldl (given env) b) := by
    intro es
    induction es with
    | nil => exact fun _ h => h
    | cons e es ih =>
      intro b hb
      refine ih _ ?_
      rcases given_cases b e with f | ⟨f1, f2⟩
      · rw [f]; exact hb
      · rw [f2]; exact stored_entered hb f1
  exact this es _ fun _ _ => .inl rfl

/-- **Preimages of the block.** The same for the preimages the block itself carries. -/
theorem C17_integrate_enters (es : List (Nat × Bytes)) (a : Global) : Entered env a (integrate env es a) := by
  have : ∀ (es : List (Nat × Bytes)) b, Entered env a b → Entered env a (integrate env es b) := by
    intro es
    induction es with
    | nil => exact fun _ h => h
    | cons e es ih =>
      intro b hb
      refine ih _ ?_
      rcases integrateOne_cases (env := env) b e with f | ⟨_, f1, f2⟩
      · rw [f]; exact hb
      · rw [f2]; exact stored_entered hb f1
  exact this es a fun _ _ => .inl rfl

/-- **The hash is right.** Every preimage an account holds hashes to the hash it is held under: entering
preimages keeps this, by either way. -/
theorem C17_preimages_hashed (O : g.NoOrphans) {es : List (Nat × Bytes)} {bs bs' : Boxes}
    (H : ∀ s b, boxGet bs s = some b → BoxGood g D s b) (h : provideAll g env es bs = some bs')
    (hh : Hashed env.hash (view g bs)) : Hashed env.hash (view g bs') ∧ Hashed env.hash (integrate env es (view g bs)) := by
  have st : ∀ (b : Global) (s : Nat) (d : Bytes), Hashed env.hash b → Hashed env.hash (stored env b s d) := by
    intro b s d hb s' h' d' hd
    unfold stored at hd
    simp only at hd
    by_cases c : s' = s
    · subst c
      rw [upd2_self] at hd
      by_cases e : h' = env.hash d
      · subst e; simp [upd] at hd; rw [hd]
      · simp [upd, e] at hd; exact hb _ _ _ hd
    · rw [upd2_other _ c] at hd; exact hb _ _ _ hd
  constructor
  · rw [C17_provide_exact O H h]
    have : ∀ (es : List (Nat × Bytes)) b, Hashed env.hash b → Hashed env.hash (es.foldl (given env) b) := by
      intro es
      induction es with
      | nil => exact fun _ h => h
      | cons e es ih =>
        intro b hb
        refine ih _ ?_
        rcases given_cases b e with f | ⟨_, f2⟩
        · rw [f]; exact hb
        · rw [f2]; exact st _ _ _ hb
    exact this es _ hh
  · have : ∀ (es : List (Nat × Bytes)) b, Hashed env.hash b → Hashed env.hash (integrate env es b) := by
      intro es
      induction es with
      | nil => exact fun _ h => h
      | cons e es ih =>
        intro b hb
        refine ih _ ?_
        rcases integrateOne_cases (env := env) b e with f | ⟨_, _, f2⟩
        · rw [f]; exact hb
        · rw [f2]; exact st _ _ _ hb
    exact this es _ hh

/-- A hash for the examples: the octets, cut or padded to four. -/
def Ex.hash4 (d : Bytes) : Bytes := (d ++ [0, 0, 0, 0]).take 4
def Ex.env4 : Env := { Ex.env with hash := Ex.hash4 }
/-- Account 7 with an open request for `[1, 2, 3]`. -/
def Ex.open7 : Global :=
  { metas := fun s => if s = 7 then some { codeHash := Ex.zeros, balance := 10000, octets := 84, items := 2 } else none,
    storage := fun _ _ => none, preimages := fun _ _ => none,
    lookups := fun s k => if s = 7 ∧ k = ([1, 2, 3, 0], 3) then some [] else none }

example : Ex.open7.NoOrphans ∧ (∀ s b, boxGet ([] : Boxes) s = some b → BoxGood Ex.open7 (fun _ => False) s b) ∧
    Hashed Ex.env4.hash (view Ex.open7 []) ∧
    ((provideAll Ex.open7 Ex.env4 [(7, [1, 2, 3]), (9, [4]), (7, [1, 2, 3])] []).map fun bs =>
      ((view Ex.open7 bs).lookups 7 ([1, 2, 3, 0], 3), (view Ex.open7 bs).preimages 7 [1, 2, 3, 0], (view Ex.open7 bs).lookups 9 ([4, 0, 0, 0], 1))) =
      some (some [20], some [1, 2, 3], none) ∧
    (integrate Ex.env4 [(7, [1, 2, 3])] Ex.open7).lookups 7 ([1, 2, 3, 0], 3) = some [20] := by
  refine ⟨?_, (fun _ _ h => by cases h), (fun _ _ _ h => by cases h), by decide +kernel, by decide +kernel⟩
  intro s h
  have c : s ≠ 7 := by intro c; subst c; simp [Ex.open7] at h
  exact ⟨(fun _ => rfl), (fun _ => rfl), fun k => by simp [Ex.open7, c]⟩

/-! ## C18 -/

/-- **What a lookup answers.** The octets the account holds, if an odd number of the recorded slots of
their request have passed at `t`. -/
theorem C18_answer_is_availability {a : Global} {now : Nat} (C : a.SlotsOk now) (s t : Nat) (h d : Bytes) :
    lookupHist a s t h = some d ↔ a.preimages s h = some d ∧ ∃ ts, a.lookups s (h, d.length % 2 ^ 32) = some ts ∧ Available ts t := by
  unfold lookupHist
  cases hp : a.preimages s h with
  | none => simp
  | some d' =>
    simp only
    constructor
    · intro e
      cases hl : a.lookups s (h, d'.length % U32) with
      | none => rw [hl] at e; cases e
      | some ts =>
        rw [hl] at e
        simp only at e
        split at e
        · next hv => cases e; exact ⟨rfl, ts, hl, (validAt_iff (C _ _ _ hl) t).1 hv⟩
        · cases e
    · rintro ⟨e, ts, hl, hv⟩
      cases e
      change a.lookups s (h, d.length % U32) = some ts at hl
      rw [hl]; simp only
      rw [if_pos ((validAt_iff (C _ _ _ hl) t).2 hv)]

example : Ex.avail.SlotsOk 20 ∧ lookupHist Ex.avail 7 9 Ex.zeros = some [1, 2, 3] ∧ lookupHist Ex.avail 7 4 Ex.zeros = none := by
  refine ⟨?_, by decide +kernel, by decide +kernel⟩
  intro s k ts h
  simp only [Ex.avail] at h
  split at h
  · cases h; exact ⟨by decide, by decide, by decide⟩
  · cases h

/-- **Answers do not change.** Let `t` be a past slot not further back than a request is kept. Whatever
calls a service makes, a lookup at `t` answers the same afterwards, or the preimage is gone, which
needs a moment at which some account asks for one hash under two lengths.
Missing from the claim: such accounts. -/
theorem C18_calls_keep_answers_partial (R : Run g D host env cs q q') (Fx : NextFree (q.view g).x) (Fy : NextFree (q.view g).y)
    (Cx : (q.view g).x.p.boxes.SlotsOk env.slot) (Cy : (q.view g).y.p.boxes.SlotsOk env.slot)
    (hw : env.slot + env.par.expiry < 2 ^ 32) (h1 : t < env.slot) (h2 : env.slot ≤ t + env.par.expiry) (s : Nat) (h : Bytes) (ans : Option Bytes)
    (ax : lookupHist (q.view g).x.p.boxes s t h = ans) (ay : lookupHist (q.view g).y.p.boxes s t h = ans) :
    (∀ x', x' = (q'.view g).x ∨ x' = (q'.view g).y → lookupHist x'.p.boxes s t h = ans ∨ x'.p.boxes.preimages s h = none) ∧
    (Throughout (accHost mapStore env) (fun p => OneLength p.x.p.boxes) cs (q.view g) →
      lookupHist (q'.view g).x.p.boxes s t h = ans ∧ lookupHist (q'.view g).y.p.boxes s t h = ans) := by
  constructor
  · have K := R.keeps (P := fun x => NextFree x ∧ x.p.boxes.SlotsOk env.slot ∧ (lookupHist x.p.boxes s t h = ans ∨ x.p.boxes.preimages s h = none))
      ⟨Fx, Cx, .inl ax⟩ ⟨Fy, Cy, .inl ay⟩ (by
        intro x x' ⟨F, C, A⟩ S _ _ st
        refine ⟨st.next F, st.slots C, ?_⟩
        rcases A with A | A
        · rcases st.hist S F C hw h1 h2 s h with e | ⟨e, _⟩
          · exact .inl (e.trans A)
          · exact .inr e
        · exact .inr (st.pre_none A))
    intro x' hx'
    rcases hx' with e | e <;> subst e
    · exact K.1.2.2
    · exact K.2.2.2
  · intro T
    have := runCalls_inv (host := accHost mapStore env)
      (I := fun p => Good p ∧ (NextFree p.x ∧ p.x.p.boxes.SlotsOk env.slot ∧ lookupHist p.x.p.boxes s t h = ans) ∧
        (NextFree p.y ∧ p.y.p.boxes.SlotsOk env.slot ∧ lookupHist p.y.p.boxes s t h = ans))
      (P := fun p => p.x.p.boxes.InRange ∧ OneLength p.x.p.boxes) (by
        intro c p p' r I r1 r2 hc
        refine ⟨acc_good I.1 r1.1 r2.1 hc, ?_⟩
        rcases acc_step I.1.ax hc with d | ⟨_, d⟩ | ⟨d1, d2⟩
        · subst d; exact I.2
        · subst d; exact ⟨I.2.1, I.2.1⟩
        · refine ⟨⟨d2.next I.2.1.1, d2.slots I.2.1.2.1, ?_⟩, d1 ▸ I.2.2⟩
          rcases d2.hist I.1.sx I.2.1.1 I.2.1.2.1 hw h1 h2 s h with e | ⟨_, e⟩
          · exact e.trans I.2.1.2.2
          · exact absurd r1.2 e) cs (q.view g) ⟨R.good, ⟨Fx, Cx, ax⟩, ⟨Fy, Cy, ay⟩⟩
        (fun pre hp s' hs => ⟨R.range pre hp s' hs, T pre hp s' hs⟩) _ R.maps
    exact ⟨this.2.1.2.2, this.2.2.2.2⟩

/-- **Preimages entered later.** Entering preimages, in a round or by the block, changes no answer about a
past slot, unless `env.hash` has a collision at hand. -/
theorem C18_entering_keeps_answers (O : g.NoOrphans) {es : List (Nat × Bytes)} {bs bs' : Boxes}
    (H : ∀ s b, boxGet bs s = some b → BoxGood g D s b) (h : provideAll g env es bs = some bs')
    (hh : Hashed env.hash (view g bs)) (h1 : t < env.slot) (s : Nat) (k : Bytes) :
    ((lookupHist (view g bs') s t k = lookupHist (view g bs) s t k ∧
      lookupHist (integrate env es (view g bs)) s t k = lookupHist (view g bs) s t k) ∨ ∃ d d', d ≠ d' ∧ env.hash d = env.hash d') := by
  by_cases inj : ∃ d d', d ≠ d' ∧ env.hash d = env.hash d'
  · exact .inr inj
  · left
    have inj' : ∀ d d', env.hash d = env.hash d' → d = d' := fun d d' e => Decidable.byContradiction fun c => inj ⟨d, d', c, e⟩
    have st : ∀ (b : Global) (s' : Nat) (d : Bytes), Hashed env.hash b → b.lookups s' (env.hash d, d.length % U32) = some [] →
        lookupHist (stored env b s' d) s t k = lookupHist b s t k ∧ Hashed env.hash (stored env b s' d) := by
      intro b s' d hb hl
      refine ⟨stored_hist hl (fun d' hd => inj' _ _ (hb _ _ _ hd)) h1 s k, ?_⟩
      intro s2 h2 d2 hd
      unfold stored at hd
      simp only at hd
      by_cases c : s2 = s'
      · subst c
        rw [upd2_self] at hd
        by_cases e : h2 = env.hash d
        · subst e; simp [upd] at hd; rw [hd]
        · simp [upd, e] at hd; exact hb _ _ _ hd
      · rw [upd2_other _ c] at hd; exact hb _ _ _ hd
    constructor
    · rw [C17_provide_exact O H h]
      have : ∀ (es : List (Nat × Bytes)) b, Hashed env.hash b → lookupHist (es.foldl (given env) b) s t k = lookupHist b s t k := by
        intro es
        induction es with
        | nil => exact fun _ _ => rfl
        | cons e es ih =>
          intro b hb
          rcases given_cases (env := env) b e with f | ⟨f1, f2⟩
          · rw [List.foldl_cons, f]; exact ih b hb
          · rw [List.foldl_cons, f2]
            obtain ⟨x1, x2⟩ := st b e.1 e.2 hb f1
            exact (ih _ x2).trans x1
      exact this es _ hh
    · have : ∀ (es : List (Nat × Bytes)) b, Hashed env.hash b → lookupHist (integrate env es b) s t k = lookupHist b s t k := by
        intro es
        induction es with
        | nil => exact fun _ _ => rfl
        | cons e es ih =>
          intro b hb
          show lookupHist (integrate env es (integrateOne env b e)) s t k = _
          rcases integrateOne_cases (env := env) b e with f | ⟨_, f1, f2⟩
          · rw [f]; exact ih b hb
          · rw [f2]
            obtain ⟨x1, x2⟩ := st b e.1 e.2 hb f1
            exact (ih _ x2).trans x1
      exact this es _ hh

/-- The example run, asked about slot 16. -/
example : ∃ q', Run Ex.g (· = 7) 7 Ex.env [Ex.write, Ex.eject] (Ex.pair []) q' ∧
    Throughout (accHost mapStore Ex.env) (fun p => OneLength p.x.p.boxes) [Ex.write, Ex.eject] ((Ex.pair []).view Ex.g) ∧
    NextFree ((Ex.pair []).view Ex.g).x ∧ 16 < Ex.env.slot ∧ Ex.env.slot ≤ 16 + Ex.env.par.expiry ∧ Ex.env.slot + Ex.env.par.expiry < 2 ^ 32 := by
  obtain ⟨q', R, _⟩ := Ex.run
  have key : ∀ a : Global, (∀ s k, (a.lookups s k).isSome → (Ex.g.lookups s k).isSome) → OneLength a := by
    intro a ha s h l l' h1 h2
    have h1 := ha _ _ h1
    have h2 := ha _ _ h2
    simp only [Ex.g] at h1 h2
    split at h1
    · next c => split at h2
                · next d => have e1 := congrArg Prod.snd c.2; have e2 := congrArg Prod.snd d.2; exact e1.trans e2.symm
                · cases h2
    · cases h1
  refine ⟨q', R, ?_, Ex.nextFree, by decide, by decide, by decide⟩
  refine Ex.throughout_cons (s := (Ex.pair []).view Ex.g) Ex.call1 (key _ fun _ _ h => h) (Ex.throughout_cons Ex.call2 (key _ fun _ _ h => h) (Ex.throughout_nil (key _ ?_)))
  intro s k h
  by_cases c : s = 8
  · subst c; simp [Ex.ctx, Ex.g2, clear] at h
  · have h : (Ex.g1.lookups s k).isSome = true := by simpa [Ex.ctx, Ex.g2, clear, c] using h
    exact h

set_option maxRecDepth 20000 in
/-- **An answer that changes.** The account asks for its available preimage again under another length and
withdraws that: the lookup at slot 17, which answered before, no longer does. -/
theorem C18_answer_lost_partial :
    lookupHist (view Ex.avail []) 7 17 Ex.zeros = some [1, 2, 3] ∧
    ∃ q', runCalls (accHost (boxStore Ex.avail) Ex.env) [Ex.solicit, Ex.forget] (Ex.pair []) = some q' ∧
      lookupHist (view Ex.avail q'.x.p.boxes) 7 17 Ex.zeros = none := ⟨by decide +kernel, _, rfl, by decide +kernel⟩

/-! ## C21 over rounds -/

/-- Service 7 has a program that ejects service 8. -/
def ExM.ejecting : Global :=
  { Ex.g with
    metas := fun s => if s = 7 then some (ExM.metaN 7) else Ex.g.metas s
    storage := fun _ _ => none
    preimages := fun s h => if s = 7 ∧ h = ExM.codeHash 7 then some [7] else none }
def ExM.ejector : Machine := ExM.machine fun _ => ([21], ExM.vm 8 0 0 0 0 0)
def ExM.step (u : PState Boxes) (a : AccArgs) : Option Merged :=
  match accumulate ExM.ejecting Ex.env ExM.ejector u a with
  | .ok r => mergeRound ExM.ejecting Ex.env (fun _ => true) u r.toList
  | .error _ => none
def ExM.gift : Transfer := { src := 7, dst := 8, amount := 50, memo := [], gas := 0 }
def ExM.balances (m : Merged) : List (Option Nat) := [7, 8].map fun s => ((view ExM.ejecting m.st.u.boxes).metas s).map Meta.balance

/-- **Duplicated tokens over two rounds.** Service 8, which has no code, receives 50 tokens in the first
round and has 350. In the second round service 7 ejects it and gets the 350, but the merge sees no
removal: service 8 keeps its 350 as well. -/
theorem C21_eject_next_round_mints_partial :
    ((ExM.step ExM.start { host := 8, gasLimit := 1000, incoming := [ExM.gift], seed := 1 }).map ExM.balances) = some [some 10000, some 350] ∧
    (((ExM.step ExM.start { host := 8, gasLimit := 1000, incoming := [ExM.gift], seed := 1 }).bind fun m =>
      ExM.step m.st.u { host := 7, gasLimit := 1000, incoming := [], seed := 1 }).map ExM.balances) = some [some 10350, some 350] := by
  decide +kernel

end Fastroll.Svc
