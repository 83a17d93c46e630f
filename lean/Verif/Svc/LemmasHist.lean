import Verif.Svc.LemmasRun
import Verif.Svc.SpecMerge

/-! # Lemmas: preimages given to accounts, and what historical lookups answer -/
namespace Fastroll.Svc
open Fastroll.Pvm

/-! ## Provided preimages -/

def AllGood (g : Global) (D : Nat → Prop) (bs : Boxes) : Prop := ∀ s b, boxGet bs s = some b → BoxGood g D s b

theorem given_eq (env : Env) (a : Global) (e : Nat × Bytes) : given env a e =
    if (a.metas e.1).isSome ∧ a.lookups e.1 (env.hash e.2, e.2.length % U32) = some [] then
      { a with
        preimages := upd2 a.preimages e.1 (env.hash e.2) (some e.2)
        lookups := upd2 a.lookups e.1 (env.hash e.2, e.2.length % U32) (some [env.slot]) }
    else a := rfl

theorem BoxGood.mono {g : Global} {D D' : Nat → Prop} {s : Nat} {b : Box} (h : ∀ s, D s → D' s) (H : BoxGood g D s b) : BoxGood g D' s b :=
  ⟨H.info, fun c => H.clean fun d => c (h s d), H.fresh, H.idle, H.storage, H.preimages, H.lookups⟩

theorem provideOne_good {g : Global} (O : g.NoOrphans) {D : Nat → Prop} {env : Env} {bs bs' : Boxes} {e : Nat × Bytes}
    (H : AllGood g D bs) (h : provideOne g env bs e = some bs') :
    view g bs' = given env (view g bs) e ∧ AllGood g (fun s => D s ∨ s = e.1) bs' := by
  have Hm : AllGood g (fun s => D s ∨ s = e.1) bs := fun s b hb => (H s b hb).mono fun _ => .inl
  unfold provideOne at h
  cases hx : ((view g bs).metas e.1).isSome with
  | false =>
    have hex : (existsActive g bs e.1).1 = false ∧ view g (existsActive g bs e.1).2 = view g bs ∧
        AllGood g (fun s => D s ∨ s = e.1) (existsActive g bs e.1).2 := by
      have hs2 : (existsActive g bs e.1).2 = ensure g bs e.1 := by
        unfold existsActive; dsimp only; split <;> rfl
      have hall : AllGood g (fun s => D s ∨ s = e.1) (ensure g bs e.1) := by
        unfold ensure
        cases hb : boxGet bs e.1 with
        | some b => exact Hm
        | none =>
          cases hg : g.metas e.1 with
          | none => exact Hm
          | some m => simp [view, hb, hg] at hx
      refine ⟨?_, by rw [hs2, ensure_view], by rw [hs2]; exact hall⟩
      unfold existsActive
      dsimp only
      cases hb : boxGet (ensure g bs e.1) e.1 with
      | none => rfl
      | some b =>
        simp only
        have hv : (view g bs).metas e.1 = b.info.value := by rw [← ensure_view g bs e.1]; exact view_metas_some hb
        rw [hv] at hx
        have : b.info.status = .removed := (hall _ _ hb).info.2 (by cases hv : b.info.value with | none => rfl | some _ => rw [hv] at hx; cases hx)
        simp [this]
    generalize hq : existsActive g bs e.1 = q at h hex
    obtain ⟨ex, bs1⟩ := q
    simp only at hex
    obtain ⟨h1, h2, h3⟩ := hex
    subst h1
    cases h
    refine ⟨?_, h3⟩
    rw [h2]; rw [given_eq]
    rw [if_neg]
    rw [hx]; simp
  | true =>
    have I : Inv g (fun s => D s ∨ s = e.1) e.1 bs := ⟨Hm, .inr rfl, hx⟩
    obtain ⟨a1, a2, a3⟩ := existsAct_sim I e.1
    generalize hq : existsActive g bs e.1 = q at h a1 a2 a3
    obtain ⟨ex, bs1⟩ := q
    simp only at a1 a2 a3
    rw [hx] at a1
    subst a1
    simp only at h
    obtain ⟨b1, b2, b3⟩ := getL_sim O a3 e.1 (env.hash e.2, e.2.length % U32)
    generalize hq : getLookup g bs1 e.1 (env.hash e.2, e.2.length % U32) = q at h b1 b2 b3
    obtain ⟨l, bs2⟩ := q
    simp only at b1 b2 b3
    rw [a2] at b1 b2
    cases l with
    | none =>
      cases h
      refine ⟨?_, b3.boxes⟩
      rw [b2]; rw [given_eq]
      rw [if_neg]
      intro c; rw [← b1] at c; cases c.2
    | some ts =>
      simp only at h
      by_cases c : ts.length ≠ 0
      · rw [if_pos c] at h
        cases h
        refine ⟨?_, b3.boxes⟩
        rw [b2]; rw [given_eq]
        rw [if_neg]
        intro d; rw [← b1] at d; cases d.2; exact c rfl
      · rw [if_neg c] at h
        have hts : ts = [] := List.length_eq_zero_iff.1 (Decidable.not_not.1 c)
        subst hts
        -- the preimage
        unfold insertPreimage at h
        simp only at h
        have H2 := ensure_inv e.1 b3
        cases hb : boxGet (ensure g bs2 e.1) e.1 with
        | none => rw [hb] at h; cases h
        | some b =>
          rw [hb] at h
          simp only at h
          have G := H2.boxes _ _ hb
          have hval : b.info.value.isSome := by
            have := H2.alive
            rw [view_metas_some hb] at this; exact this
          have I3 : Inv g (fun s => D s ∨ s = e.1) e.1 (boxSet (ensure g bs2 e.1) e.1 { b with preimages := insertEntry b.preimages (g.preimages e.1) (env.hash e.2) e.2 }) :=
            set_inv H2 ⟨G.info, G.clean, G.fresh, G.idle, G.storage, insertEntry_good _ _ _ G.preimages _, G.lookups⟩ (fun _ => hval)
          have V3 : view g (boxSet (ensure g bs2 e.1) e.1 { b with preimages := insertEntry b.preimages (g.preimages e.1) (env.hash e.2) e.2 }) =
              { view g bs with preimages := upd2 (view g bs).preimages e.1 (env.hash e.2) (some e.2) } := by
            rw [view_set]
            have hv : view g (ensure g bs2 e.1) = view g bs := (ensure_view _ _ _).trans b2
            apply Global.ext
            · simp only
              rw [← view_metas_some (g := g) hb, hv, upd_same]
            · simp only
              rw [← view_storage_some (g := g) hb, hv]; exact ite_self_fun _ _
            · simp only
              rw [insertEntry_lay _ _ _ G.preimages, ← view_preimages_some (g := g) hb, hv]; rfl
            · simp only
              rw [← view_lookups_some (g := g) hb, hv]; exact ite_self_fun _ _
          generalize boxSet (ensure g bs2 e.1) e.1 { b with preimages := insertEntry b.preimages (g.preimages e.1) (env.hash e.2) e.2 } = bs3 at h I3 V3
          unfold Store.push at h
          rw [show (boxStore g).getL bs3 e.1 (env.hash e.2, e.2.length % U32) = getLookup g bs3 e.1 (env.hash e.2, e.2.length % U32) from rfl] at h
          obtain ⟨d1, d2, d3⟩ := getL_sim O I3 e.1 (env.hash e.2, e.2.length % U32)
          generalize hq : getLookup g bs3 e.1 (env.hash e.2, e.2.length % U32) = q at h d1 d2 d3
          obtain ⟨l, bs4⟩ := q
          simp only at d1 d2 d3
          rw [V3] at d1 d2
          simp only at d1
          rw [← b1] at d1
          subst d1
          simp only [List.length_nil, Nat.zero_lt_succ, if_true, List.nil_append] at h
          rw [show (boxStore g).insL bs4 e.1 (env.hash e.2, e.2.length % U32) [env.slot] = insertLookup g bs4 e.1 (env.hash e.2, e.2.length % U32) [env.slot] from rfl] at h
          have S := insL_sim d3 e.1 (env.hash e.2, e.2.length % U32) [env.slot] d3.alive
          rw [h, d2] at S
          have hm : ∃ m, (view g bs).metas e.1 = some m := Option.isSome_iff_exists.1 hx
          obtain ⟨m, hm⟩ := hm
          simp only [mapStore, hm, Option.map_some, SimOpt] at S
          refine ⟨?_, S.2.boxes⟩
          rw [S.1]; rw [given_eq]
          rw [if_pos ⟨hx, b1.symm⟩]

theorem provideAll_good {g : Global} (O : g.NoOrphans) {env : Env} : ∀ (es : List (Nat × Bytes)) (D : Nat → Prop) (bs bs' : Boxes),
    AllGood g D bs → provideAll g env es bs = some bs' →
    view g bs' = es.foldl (given env) (view g bs) ∧ ∃ D', AllGood g D' bs' := by
  intro es
  induction es with
  | nil => intro D bs bs' H h; cases h; exact ⟨rfl, D, H⟩
  | cons e es ih =>
    intro D bs bs' H h
    unfold provideAll at h
    cases h1 : provideOne g env bs e with
    | none => rw [h1] at h; cases h
    | some bs1 =>
      rw [h1] at h
      obtain ⟨e1, e2⟩ := provideOne_good O H h1
      obtain ⟨f1, f2⟩ := ih _ bs1 bs' e2 h
      exact ⟨by rw [f1, e1]; rfl, f2⟩

/-! ## Historical lookups -/

theorem validAt_iff {now : Nat} {ts : List Nat} (h : SlotsOk now ts) (t : Nat) : validAt ts t = true ↔ Available ts t := by
  obtain ⟨h1, h2, _⟩ := h
  unfold Available
  match ts, h1, h2 with
  | [], _, _ => simp [validAt]
  | [a], _, _ => by_cases c : a ≤ t <;> simp [validAt, c]
  | [a, b], _, h2 =>
    have : a ≤ b := by simpa using h2
    by_cases c : a ≤ t <;> by_cases d : b ≤ t <;> simp [validAt, c, d] <;> omega
  | [a, b, c], _, h2 =>
    have h3 : a ≤ b ∧ a ≤ c ∧ b ≤ c := by
      simp only [List.pairwise_cons, List.mem_cons, List.not_mem_nil, or_false, forall_eq_or_imp, forall_eq] at h2
      exact ⟨h2.1.1, h2.1.2, h2.2.1⟩
    by_cases ca : a ≤ t <;> by_cases cb : b ≤ t <;> by_cases cc : c ≤ t <;> simp [validAt, ca, cb, cc] <;> omega

/-- The answer for a slot in the window does not see what happens now. -/
theorem life_valid {D now t : Nat} {r r' : Option (List Nat)} (h1 : t < now) (h2 : now ≤ t + D)
    (L : LifeStep (fun y => y + D < now) now r r') : r.any (validAt · t) = r'.any (validAt · t) := by
  cases L with
  | stay => rfl
  | request => rfl
  | withdraw => rfl
  | retire x => simp [validAt, h1]
  | again x y => simp [validAt]; omega
  | forget x y h => simp [validAt]; omega
  | retireAgain x y z h =>
    simp only [validAt, Option.any_some]
    have : ¬ t < y := by omega
    simp [this, h1]

theorem hist_any (a : Global) (s t : Nat) (h : Bytes) : lookupHist a s t h =
    match a.preimages s h with
    | none => none
    | some d => if (a.lookups s (h, d.length % U32)).any (validAt · t) then some d else none := by
  unfold lookupHist
  cases a.preimages s h with
  | none => rfl
  | some d =>
    simp only
    generalize a.lookups s (h, d.length % U32) = r
    cases r <;> simp

theorem hist_pre {a a' : Global} {s t : Nat} {h : Bytes} (hp : a'.preimages s h = a.preimages s h)
    (hl : ∀ k, (a'.lookups s k).any (validAt · t) = (a.lookups s k).any (validAt · t)) : lookupHist a' s t h = lookupHist a s t h := by
  rw [hist_any, hist_any, hp]
  cases a.preimages s h with
  | none => rfl
  | some d => simp only [hl]

theorem hist_none {a : Global} {s t : Nat} {h : Bytes} (hl : ∀ d, a.preimages s h = some d → (a.lookups s (h, d.length % U32)).any (validAt · t) = false) :
    lookupHist a s t h = none := by
  rw [hist_any]
  cases hd : a.preimages s h with
  | none => rfl
  | some d => simp [hl d hd]

theorem hist_nopre {a : Global} {s t : Nat} {h : Bytes} (hp : a.preimages s h = none) : lookupHist a s t h = none := by
  rw [hist_any, hp]

variable {env : Env} {x x' : Ctx Global} {t : Nat}

theorem expires_iff {y : Nat} (hw : env.slot + env.par.expiry < U32) (hy : y ≤ env.slot) :
    expiresAt env y < env.slot → y + env.par.expiry < env.slot := by
  intro h
  unfold expiresAt at h
  rwa [Nat.mod_eq_of_lt (by omega)] at h

theorem life_true (hw : env.slot + env.par.expiry < U32) {r r' : Option (List Nat)} (ho : ∀ ts, r = some ts → SlotsOk env.slot ts)
    (L : LifeStep (fun y => expiresAt env y < env.slot) env.slot r r') : LifeStep (fun y => y + env.par.expiry < env.slot) env.slot r r' := by
  cases L with
  | stay => exact .stay _
  | request => exact .request
  | withdraw => exact .withdraw
  | retire x => exact .retire x
  | again x y => exact .again x y
  | forget x y h => exact .forget x y (expires_iff hw ((ho _ rfl).2.2 y (by simp)) h)
  | retireAgain x y z h => exact .retireAgain x y z (expires_iff hw ((ho _ rfl).2.2 y (by simp)) h)

theorem Step.hist (st : Step env true x x') (S : x.p.boxes.Sound) (F : NextFree x) (C : x.p.boxes.SlotsOk env.slot)
    (hw : env.slot + env.par.expiry < U32) (h1 : t < env.slot) (h2 : env.slot ≤ t + env.par.expiry) (s : Nat) (h : Bytes) :
    lookupHist x'.p.boxes s t h = lookupHist x.p.boxes s t h ∨ (x'.p.boxes.preimages s h = none ∧ ¬ OneLength x.p.boxes) := by
  have L : ∀ k, (x'.p.boxes.lookups s k).any (validAt · t) = (x.p.boxes.lookups s k).any (validAt · t) := fun k =>
    (life_valid h1 h2 (life_true hw (fun ts => C s k ts) (st.life S F s k))).symm
  have keep : x'.p.boxes.preimages s h = x.p.boxes.preimages s h →
      lookupHist x'.p.boxes s t h = lookupHist x.p.boxes s t h ∨ (x'.p.boxes.preimages s h = none ∧ ¬ OneLength x.p.boxes) :=
    fun hp => .inl (hist_pre hp L)
  cases st with
  | same _ hb => exact keep (by rw [hb])
  | write => exact keep rfl
  | upgrade => exact keep rfl
  | pay => exact keep rfl
  | solicit => exact keep rfl
  | resolicit => exact keep rfl
  | unavail => exact keep rfl
  | cycle => exact keep rfl
  | drop m k0 ts hm hl he =>
    by_cases c : s = x.host
    · subst c
      by_cases d : h = k0.1
      · have hn : upd2 x.p.boxes.preimages x.host k0.1 none x.host h = none := by rw [upd2_self, d]; simp [upd]
        by_cases o : OneLength x.p.boxes
        · left
          rw [hist_nopre (by exact hn), hist_none]
          intro dat hd
          cases hq : x.p.boxes.lookups x.host (h, dat.length % U32) with
          | none => rfl
          | some ts' =>
            have hlen := o x.host h (dat.length % U32) k0.2 (by rw [hq]; rfl) (by rw [d]; show (x.p.boxes.lookups x.host k0).isSome = true; rw [hl]; rfl)
            have hk : (h, dat.length % U32) = k0 := Prod.ext d hlen
            rw [hk, hl] at hq
            cases hq
            have ho := C _ _ _ hl
            rcases he with e | ⟨a, b, e, e'⟩
            · rw [e]; rfl
            · have := expires_iff hw (ho.2.2 b (by rw [e]; simp)) e'
              rw [e]; simp [validAt]; omega
        · exact .inr ⟨hn, o⟩
      · refine keep ?_
        show upd2 x.p.boxes.preimages x.host k0.1 none x.host h = _
        rw [upd2_self]; simp [upd, d]
    · refine keep ?_
      show upd2 x.p.boxes.preimages x.host k0.1 none s h = _
      rw [upd2_other _ c]
  | create m id nm key next hm _ _ _ _ _ hid _ =>
    have hfree : x.p.boxes.metas id = none := by
      rcases hid with ⟨_, _, h, _⟩ | ⟨h, _⟩
      · exact h
      · rw [h]; exact F.2
    refine keep ?_
    simp only [Ctx.setBoxes, created]
    by_cases c : s = id
    · subst c; rw [clear_self, (S.orphans _ hfree).2.1]
    · rw [clear_other _ c]
  | eject m e em key a b hm he hne _ hi hk hl hx _ =>
    by_cases c : s = e
    · subst c
      left
      have O := only_request S he hi (key := key) (by rw [hl]; rfl)
      rw [hist_nopre (by show clear x.p.boxes.preimages s s h = none; rw [clear_self]), hist_none]
      intro dat hd
      by_cases d : (h, dat.length % U32) = key
      · rw [d, hl]
        have := expires_iff hw ((C _ _ _ hl).2.2 b (by simp)) hx
        simp [validAt]; omega
      · rw [O.2.2 _ d]; rfl
    · refine keep ?_
      show clear x.p.boxes.preimages e s h = _
      rw [clear_other _ c]

theorem Step.pre_none (st : Step env true x x') {s : Nat} {h : Bytes} (hp : x.p.boxes.preimages s h = none) : x'.p.boxes.preimages s h = none := by
  cases st with
  | same _ hb => rw [hb]; exact hp
  | write => exact hp
  | upgrade => exact hp
  | pay => exact hp
  | solicit => exact hp
  | resolicit => exact hp
  | unavail => exact hp
  | cycle => exact hp
  | drop m k0 ts hm hl he =>
    show upd2 x.p.boxes.preimages x.host k0.1 none s h = _
    by_cases c : s = x.host
    · subst c; rw [upd2_self]; simp only [upd]; split <;> simp [hp]
    · rw [upd2_other _ c]; exact hp
  | create m id nm key next =>
    simp only [Ctx.setBoxes, created]
    by_cases c : s = id
    · subst c; rw [clear_self]
    · rw [clear_other _ c]; exact hp
  | eject m e em key a b =>
    show clear x.p.boxes.preimages e s h = _
    by_cases c : s = e
    · subst c; rw [clear_self]
    · rw [clear_other _ c]; exact hp

/-! ## The block's preimages -/

theorem integrateOne_eq (a : Global) (e : Nat × Bytes) (hp : a.preimages e.1 (env.hash e.2) = none)
    (hl : a.lookups e.1 (env.hash e.2, e.2.length % U32) = some []) :
    integrateOne env a e = { a with
      preimages := upd2 a.preimages e.1 (env.hash e.2) (some e.2)
      lookups := upd2 a.lookups e.1 (env.hash e.2, e.2.length % U32) (some [env.slot]) } := by
  unfold integrateOne
  simp only [hp, hl, Option.isSome_none, Bool.false_eq_true, if_false]
  apply Global.ext <;> try rfl
  · simp only; funext s; unfold upd2; by_cases c : s = e.1 <;> simp [c]
  · simp only; funext s; unfold upd2; by_cases c : s = e.1 <;> simp [c]

/-- One integration either changes nothing or is what `given` does. -/
theorem integrateOne_cases (a : Global) (e : Nat × Bytes) : integrateOne env a e = a ∨
    (a.preimages e.1 (env.hash e.2) = none ∧ a.lookups e.1 (env.hash e.2, e.2.length % U32) = some [] ∧
      integrateOne env a e = { a with
        preimages := upd2 a.preimages e.1 (env.hash e.2) (some e.2)
        lookups := upd2 a.lookups e.1 (env.hash e.2, e.2.length % U32) (some [env.slot]) }) := by
  cases hp : a.preimages e.1 (env.hash e.2) with
  | some d => left; unfold integrateOne; simp [hp]
  | none =>
    cases hl : a.lookups e.1 (env.hash e.2, e.2.length % U32) with
    | none => left; unfold integrateOne; simp [hp, hl]
    | some ts =>
      cases ts with
      | nil => exact .inr ⟨rfl, rfl, integrateOne_eq a e hp hl⟩
      | cons t l => left; unfold integrateOne; simp [hp, hl]

/-- Storing `d` under its hash for an open request at `now`. -/
def stored (env : Env) (a : Global) (s : Nat) (d : Bytes) : Global :=
  { a with preimages := upd2 a.preimages s (env.hash d) (some d), lookups := upd2 a.lookups s (env.hash d, d.length % U32) (some [env.slot]) }

theorem stored_lookups {a : Global} {s : Nat} {d : Bytes} (hl : a.lookups s (env.hash d, d.length % U32) = some []) (s' : Nat) (k : LKey) :
    (stored env a s d).lookups s' k = a.lookups s' k ∨ (a.lookups s' k = some [] ∧ (stored env a s d).lookups s' k = some [env.slot] ∧
      (stored env a s d).preimages s' k.1 = some d ∧ k = (env.hash d, d.length % U32)) := by
  unfold stored
  simp only
  by_cases c : s' = s
  · subst c
    rw [upd2_self, upd2_self]
    by_cases e : k = (env.hash d, d.length % U32)
    · subst e; right; exact ⟨hl, by simp [upd], by simp [upd], rfl⟩
    · left; simp [upd, e]
  · left; rw [upd2_other _ c]

theorem stored_hist {a : Global} {s : Nat} {d : Bytes} (hl : a.lookups s (env.hash d, d.length % U32) = some [])
    (hp : ∀ d', a.preimages s (env.hash d) = some d' → d' = d) (h1 : t < env.slot) (s' : Nat) (h : Bytes) :
    lookupHist (stored env a s d) s' t h = lookupHist a s' t h := by
  have L : ∀ k, ((stored env a s d).lookups s' k).any (validAt · t) = (a.lookups s' k).any (validAt · t) := by
    intro k
    rcases stored_lookups hl s' k with e | ⟨e1, e2, _⟩
    · rw [e]
    · rw [e1, e2]; simp [validAt]; omega
  by_cases c : s' = s ∧ h = env.hash d
  · obtain ⟨c1, c2⟩ := c
    subst c1; subst c2
    rw [hist_none, hist_none]
    · intro d' hd
      rw [hp d' hd, hl]; rfl
    · intro d' hd
      have : (stored env a s' d).preimages s' (env.hash d) = some d := by simp [stored, upd2, upd]
      rw [this] at hd; cases hd
      rw [L, hl]; rfl
  · refine hist_pre ?_ L
    show upd2 a.preimages s (env.hash d) (some d) s' h = _
    by_cases e : s' = s
    · subst e
      rw [upd2_self]
      have : h ≠ env.hash d := fun f => c ⟨rfl, f⟩
      simp [upd, this]
    · rw [upd2_other _ e]

end Fastroll.Svc
