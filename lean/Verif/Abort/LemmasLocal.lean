import Verif.Delta.LemmasAcct

/-! # Lemmas: what holds of every account by itself, through the rounds of a block -/
namespace Fastroll.Abort
open Fastroll.Pvm Fastroll.Svc Fastroll.Delta
variable {g : Global} {D : Nat → Prop} {env : Env} {mach : Machine} {E : Env → Prop} {Q : Global → Nat → Prop}

/-- A property of single accounts that host calls, incoming tokens and provided preimages keep, in
environments that satisfy `E`. -/
structure Local (E : Env → Prop) (Q : Global → Nat → Prop) : Prop where
  same : ∀ {a b s}, SameAt a b s → Q a s → Q b s
  credit : ∀ {a t n}, (∀ s, Q a s) → ∀ s, Q (credit a t n) s
  given : ∀ {env a e}, E env → (∀ s, Q a s) → ∀ s, Q (given env a e) s
  step : ∀ {env x x'}, E env → Step env true x x' → (∀ s, Q x.p.boxes s) → ∀ s, Q x'.p.boxes s

theorem Local.set (L : Local E Q) {bs bs' : Boxes} (F : ∀ s, Q (view g bs) s) (F' : ∀ s, Q (view g bs') s) {s : Nat} {bx : Box} (h : boxGet bs' s = some bx) :
    ∀ t, Q (view g (boxSet bs s bx)) t := by
  intro t
  by_cases c : t = s
  · subst c
    exact L.same (same_box (by rw [boxGet_set, if_pos rfl, h])) (F' t)
  · exact L.same (same_box (by rw [boxGet_set, if_neg c])) (F t)

theorem Local.provideAll (L : Local E Q) (he : E env) (O : g.NoOrphans) : ∀ (es : List (Nat × Bytes)) {bs bs' : Boxes}, Fit g D bs → (∀ s, Q (view g bs) s) →
    provideAll g env es bs = some bs' → ∀ s, Q (view g bs') s
  | [], bs, bs', _, F, h => by cases h; exact F
  | e :: es, bs, bs', G, F, h => by
    unfold Svc.provideAll at h
    cases h1 : Svc.provideOne g env bs e with
    | none => rw [h1] at h; cases h
    | some b1 =>
      rw [h1] at h
      refine L.provideAll he O es (G.provideOne O h1) ?_ h
      rw [(provideOne_good O G.good h1).1]
      exact L.given he F

theorem Local.mergeAccounts (L : Local E Q) {b : Base} {host : Nat} {bs : Boxes} (F' : ∀ s, Q (view g bs) s) : ∀ (ks : List Nat) {st st' : Svc.Round}, (∀ s, Q (view g st.u.boxes) s) →
    mergeAccounts g b host bs ks st = some st' → ∀ s, Q (view g st'.u.boxes) s
  | [], st, st', F, h => by cases h; exact F
  | k :: ks, st, st', F, h => by
    unfold Svc.mergeAccounts at h
    split at h
    · exact L.mergeAccounts F' ks F h
    · split at h
      · exact L.mergeAccounts F' ks F h
      · rename_i bx hb
        split at h
        · cases h
        · rename_i st1 h1
          refine L.mergeAccounts F' ks ?_ h
          rcases mergeAccount_spec h1 with ⟨_, e⟩ | ⟨_, _, e, _⟩
          · rw [e]; exact F
          · rw [e]; exact L.set F F' hb

theorem Local.mergeOne (L : Local E Q) {b : Base} {st st' : Svc.Round} {r : AccResult} (F : ∀ s, Q (view g st.u.boxes) s) (F' : ∀ s, Q (view g r.p.boxes) s)
    (h : mergeOne g b st r = some st') : ∀ s, Q (view g st'.u.boxes) s := by
  have en : ∀ {bs : Boxes} (t : Nat), (∀ s, Q (view g bs) s) → ∀ s, Q (view g (ensure g bs t)) s := fun t h => by rw [ensure_view]; exact h
  unfold Svc.mergeOne at h
  dsimp only at h
  split at h
  · cases h
  · rename_i hb h1
    split at h
    · cases h; exact en _ F
    · split at h
      · cases h
      · split at h
        · cases h
        · rename_i bx h2
          exact L.mergeAccounts (en _ F') _ (L.set (en _ F) (en _ F') h2) h

theorem Local.mergeResults (L : Local E Q) (he : E env) (O : g.NoOrphans) {b : Base} {metered : Nat → Bool} : ∀ (rs : List AccResult) {m m' : Merged}, Fit g D m.st.u.boxes →
    (∀ r ∈ rs, Fit g D r.p.boxes) → (∀ s, Q (view g m.st.u.boxes) s) → (∀ r ∈ rs, ∀ s, Q (view g r.p.boxes) s) →
    mergeResults g env b metered rs m = some m' → ∀ s, Q (view g m'.st.u.boxes) s
  | [], m, m', _, _, F, _, h => by cases h; exact F
  | r :: rs, m, m', G, G', F, F', h => by
    unfold Svc.mergeResults at h
    split at h
    · cases h
    · rename_i m1 h1
      have G1 : Fit g D m1.st.u.boxes := by
        have : Svc.mergeResults g env b metered [r] m = some m1 := by unfold Svc.mergeResults; rw [h1]; rfl
        exact Fit.mergeResults O [r] G (fun r' hr' => by rw [List.mem_singleton.1 hr']; exact G' r (List.mem_cons_self ..)) this
      refine L.mergeResults he O rs G1 (fun r hr => G' r (List.mem_cons_of_mem _ hr)) ?_ (fun r hr => F' r (List.mem_cons_of_mem _ hr)) h
      unfold mergeResult at h1
      split at h1
      · cases h1
      · rename_i st h2
        have F2 := L.mergeOne F (F' r (List.mem_cons_self ..)) h2
        have G2 := G.mergeOne (G' r (List.mem_cons_self ..)) h2
        split at h1
        · split at h1
          · cases h1
          · rename_i bs h3
            cases h1; exact L.provideAll he O _ G2 F2 h3
        · cases h1; exact F2

theorem Local.result (L : Local E Q) (he : E env) (hq : ∀ s, Q g s) (hg : Healthy g) {u : PState Boxes} {a : AccArgs} {r : AccResult} (F : Fit g D u.boxes)
    (hd : D a.host) (h : accumulate g env mach u a = .ok (some r))
    (C : ∀ q cs, opening g env mach u a = some (q, cs) →
      Throughout (accHost mapStore env) (fun p => p.x.p.boxes.InRange) cs (q.view g) ∧ BeforeEach (accHost mapStore env) (CallOk g D) cs (q.view g))
    (hu : ∀ s, Q (view g u.boxes) s) : ∀ s, Q (view g r.p.boxes) s := by
  obtain ⟨bs1, bs2, bs3, c, h1, h2, h3, h4⟩ := accumulate_opening h
  have O := hg.sound.orphans
  obtain ⟨v3, I3, b3⟩ := prepare O F.good hd h1 h2 h3
  have ok3 : ∀ s, OkAt (view g bs3) s := by rw [v3]; exact credit_ok F.ok
  have q3 : ∀ s, Q (view g bs3) s := by rw [v3]; exact L.credit hu
  rcases h4 with e | ⟨id, out, used, cs, q', e1, e2, e3, e4⟩
  · subst e
    simp only
    obtain ⟨b, hb⟩ := Option.isSome_iff_exists.1 b3
    intro s
    by_cases e : s = a.host
    · subst e
      exact L.same (same_box (by rw [boxOnly_get, if_pos rfl])) (q3 _)
    · refine L.same (a := g) ?_ (hq s)
      constructor <;> simp only [view, boxOnly_get, if_neg e]
  · obtain ⟨T, B⟩ := C _ _ e2
    generalize hx : freshCtx a.host { u with boxes := bs3 } id = x at *
    have xh : x.host = a.host := by rw [← hx]; rfl
    have xb : x.p.boxes = bs3 := by rw [← hx]; rfl
    have I : PairInv g D a.host { x := x, y := x } := ⟨by rw [xb]; exact I3, by rw [xb]; exact I3, xh, xh⟩
    have hh3 := healthy_iff.2 ok3
    have Gd : Good (Pair.view g { x := x, y := x }) := by
      have k1 : (x.view g).p.boxes.Sound := by show (view g x.p.boxes).Sound; rw [xb]; exact hh3.sound
      have k2 : ((x.view g).p.boxes.metas (x.view g).host).isSome := by show ((view g x.p.boxes).metas x.host).isSome; rw [xb, xh]; exact I3.alive
      exact ⟨k1, k1, k2, k2⟩
    have R : Run g D a.host env cs { x := x, y := x } q' := ⟨O, I, Gd, T, B, e3⟩
    have P0 : ∀ s, Q (view g x.p.boxes) s := by rw [xb]; exact q3
    have key := R.keeps (P := fun x => ∀ s, Q x.p.boxes s) P0 P0 (fun y y' hp _ _ _ st => L.step he st hp)
    have hrp : r.p = q'.x.p ∨ r.p = q'.y.p := by
      rw [e4]; cases out <;> first | exact .inl rfl | exact .inr rfl
    rcases hrp with k | k
    · rw [k]; exact key.1
    · rw [k]; exact key.2

theorem Local.round (L : Local E Q) {W : World} {R : Delta.Round} (hb : E W.base) (he : ∀ s ts rs, E (W.env s ts rs)) (hg : Healthy W.g) (hD : ∀ s, W.g.metas s = none → D s)
    (hr : ∀ r ∈ R.results, D r.host) (Fa : R.Faithful W) (C : R.Careful W D) (F : Fit W.g D R.start.boxes) {n0 : Nat} (h0 : Held (view W.g R.start.boxes) n0)
    (hin : inFlight R.delivered < U64) (hq : ∀ s, Q W.g s) (hu : ∀ s, Q (view W.g R.start.boxes) s) : ∀ s, Q (view W.g R.finish.boxes) s := by
  have key : ∀ r ∈ R.results, Fit W.g D r.p.boxes := fun r hr' =>
    (result_ok hg hD (a := { host := r.host, gasLimit := R.limit r.host, incoming := R.delivered.filter fun t => t.dst == r.host, seed := W.seed r.host })
      F (hr r hr') (Nat.lt_of_le_of_lt (inFlight_filter _ _) hin) (Fa.run r hr').2 (C r hr') h0).1
  have key2 : ∀ r ∈ R.results, ∀ s, Q (view W.g r.p.boxes) s := fun r hr' =>
    L.result (he _ _ _) hq hg (a := { host := r.host, gasLimit := R.limit r.host, incoming := R.delivered.filter fun t => t.dst == r.host, seed := W.seed r.host })
      F (hr r hr') (Fa.run r hr').2 (C r hr') hu
  obtain ⟨m, h1, h2⟩ := Fa.merge
  rw [← h2]
  unfold mergeRound at h1
  split at h1
  · cases h1
  · rename_i m' hm
    cases h1
    have := L.mergeResults hb hg.sound.orphans R.results (m := { st := { u := R.start } }) F key hu key2 hm
    exact this

/-! ## The slots of requests and the hashes of preimages -/

def SlotsAt (now : Nat) (a : Global) (s : Nat) : Prop := ∀ k ts, a.lookups s k = some ts → SlotsOk now ts
def HashAt (hash : Bytes → Bytes) (a : Global) (s : Nat) : Prop := ∀ h d, a.preimages s h = some d → hash d = h

theorem slots_local (now : Nat) : Local (fun env => env.slot = now) (SlotsAt now) where
  same h q := by unfold SlotsAt; rw [h.lookups]; exact q
  credit q := q
  given := by
    intro env a e he q s k ts hk
    rw [given_eq] at hk
    split at hk
    · simp only at hk
      by_cases c : s = e.1
      · subst c
        rw [upd2_self] at hk
        simp only [upd] at hk
        split at hk
        · cases hk; exact ⟨by simp, by simp, by simp [he]⟩
        · exact q _ _ _ hk
      · rw [upd2_other _ c] at hk; exact q _ _ _ hk
    · exact q _ _ _ hk
  step := by
    intro env x x' he st q s
    have := st.slots (fun s k ts h => by rw [he]; exact q s k ts h)
    intro k ts h
    have := this s k ts h
    rwa [he] at this

theorem hash_local (hash : Bytes → Bytes) : Local (fun env => env.hash = hash) (HashAt hash) where
  same h q := by unfold HashAt; rw [h.preimages]; exact q
  credit q := q
  given := by
    intro env a e he q s k ts hk
    rw [given_eq] at hk
    split at hk
    · simp only at hk
      by_cases c : s = e.1
      · subst c
        rw [upd2_self] at hk
        simp only [upd] at hk
        split at hk
        · rename_i h; cases hk; rw [h, he]
        · exact q _ _ _ hk
      · rw [upd2_other _ c] at hk; exact q _ _ _ hk
    · exact q _ _ _ hk
  step := by
    intro env x x' he st q s
    cases st with
    | same _ hb => rw [hb]; exact q s
    | write => exact q s
    | upgrade => exact q s
    | pay => exact q s
    | solicit => exact q s
    | resolicit => exact q s
    | unavail => exact q s
    | cycle => exact q s
    | drop m k0 ts hm hl he =>
      intro k d hk
      simp only [Ctx.setBoxes] at hk
      by_cases c : s = x.host
      · subst c
        rw [upd2_self] at hk; simp only [upd] at hk
        split at hk
        · cases hk
        · exact q _ _ _ hk
      · rw [upd2_other _ c] at hk; exact q _ _ _ hk
    | create m id nm key next =>
      intro k d hk
      simp only [Ctx.setBoxes, created] at hk
      by_cases c : s = id
      · subst c; rw [clear_self] at hk; cases hk
      · rw [clear_other _ c] at hk; exact q _ _ _ hk
    | eject m e em key a b hm he =>
      intro k d hk
      simp only [Ctx.setBoxes] at hk
      by_cases c : s = e
      · subst c; rw [clear_self] at hk; cases hk
      · rw [clear_other _ c] at hk; exact q _ _ _ hk

end Fastroll.Abort
