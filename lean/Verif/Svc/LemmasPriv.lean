import Verif.Svc.LemmasRound

/-! # Lemmas: privileges through a round -/
namespace Fastroll.Svc
open Fastroll.Pvm

variable {g : Global} {D : Nat → Prop} {u : PState Boxes} {rs : List AccResult} {env : Env} {metered : Nat → Bool} {b : Base}

/-- A property of the privileges kept by every merge. -/
theorem mergeResults_priv {P : PState Boxes → Prop} (hb : ∀ v bs, P v → P { v with boxes := bs })
    (step : ∀ r ∈ rs, ∀ v v', mergePrivileges b r.host v r.p = some v' → P v → P v') :
    ∀ (l : List AccResult) (m m' : Merged), (∀ r ∈ l, r ∈ rs) → mergeResults g env b metered l m = some m' →
    P m.st.u → P m'.st.u := by
  intro l
  induction l with
  | nil => intro m m' _ h hp; cases h; exact hp
  | cons r l ih =>
    intro m m' hl h hp
    unfold mergeResults at h
    cases h1 : mergeResult g env b metered m r with
    | none => rw [h1] at h; cases h
    | some m1 =>
      rw [h1] at h
      refine ih m1 m' (fun r' h' => hl r' (List.mem_cons_of_mem _ h')) h ?_
      unfold mergeResult at h1
      cases h2 : mergeOne g b m.st r with
      | none => rw [h2] at h1; cases h1
      | some st =>
        rw [h2] at h1
        simp only at h1
        have hst : P st.u := by
          rcases mergeOne_spec h2 with ⟨_, _, _, e⟩ | ⟨_, _, v, _, _, e3, ⟨bs', e4⟩, _⟩
          · rw [e]; exact hb _ _ hp
          · rw [e4]; exact hb _ _ (step r (hl r (List.mem_cons_self ..)) _ _ e3 hp)
        by_cases c : metered r.host = true
        · rw [if_pos c] at h1
          cases h3 : provideAll g env r.provided st.u.boxes with
          | none => rw [h3] at h1; cases h1
          | some bs => rw [h3] at h1; cases h1; exact hb _ _ hst
        · rw [if_neg c] at h1; cases h1; exact hst

theorem Role.mergeOwn_conf (a o : Role) : (a.mergeOwn o).confirmed = a.confirmed := by
  unfold Role.mergeOwn; split <;> (try split) <;> rfl
theorem Role.merge_conf (a o : Role) : (a.merge o).confirmed = a.confirmed := by
  unfold Role.merge; split <;> (try split) <;> first | rfl | exact Role.mergeOwn_conf _ _
theorem Role.mergeOwn_bless (a o : Role) : (a.mergeOwn o).byBless = a.byBless := by
  unfold Role.mergeOwn; split <;> (try split) <;> rfl

theorem Role.mergeOwn_self {a o : Role} {s : Nat} (h : (a.mergeOwn o).bySelf = some s) : a.bySelf = some s ∨ o.bySelf = some s := by
  unfold Role.mergeOwn at h
  cases ho : o.bySelf with
  | none => rw [ho] at h; exact .inl h
  | some t =>
    rw [ho] at h
    simp only at h
    split at h
    · exact .inr h
    · exact .inl h

theorem Role.merge_bless {a o : Role} {s : Nat} (h : (a.merge o).byBless = some s) : a.byBless = some s ∨ o.byBless = some s := by
  unfold Role.merge at h
  cases ho : o.byBless with
  | none => rw [ho] at h; exact .inl ((Role.mergeOwn_bless a o).symm.trans h)
  | some t =>
    rw [ho] at h
    simp only at h
    split at h
    · exact .inr h
    · exact .inl ((Role.mergeOwn_bless a o).symm.trans h)

theorem Role.merge_self {a o : Role} {s : Nat} (h : (a.merge o).bySelf = some s) : a.bySelf = some s ∨ o.bySelf = some s := by
  unfold Role.merge at h
  cases ho : o.byBless with
  | none => rw [ho] at h; exact Role.mergeOwn_self h
  | some t =>
    rw [ho] at h
    simp only at h
    split at h
    · exact .inl h
    · exact Role.mergeOwn_self h

/-- The pending changes of a role come from the manager's and the holder's results. -/
def RoleFrom (role : PState Boxes → Role) (mgr o : Nat) (rs : List AccResult) (v : PState Boxes) : Prop :=
  (role v).confirmed = o ∧
  (∀ s, (role v).byBless = some s → ∃ r ∈ rs, r.host = mgr ∧ (role r.p).byBless = some s) ∧
  (∀ s, (role v).bySelf = some s → ∃ r ∈ rs, r.host = o ∧ (role r.p).bySelf = some s)

theorem roleFrom_merge {mgr o host : Nat} {a c : Role} {p : Nat → Prop} {q : Nat → Prop}
    (hc : a.confirmed = o) (hp : ∀ s, a.byBless = some s → p s) (hq : ∀ s, a.bySelf = some s → q s)
    (hp' : host = mgr → ∀ s, c.byBless = some s → p s) (hq' : host = o → ∀ s, c.bySelf = some s → q s) :
    (a.merge (filterRole mgr o host c)).confirmed = o ∧
    (∀ s, (a.merge (filterRole mgr o host c)).byBless = some s → p s) ∧
    (∀ s, (a.merge (filterRole mgr o host c)).bySelf = some s → q s) := by
  refine ⟨(Role.merge_conf _ _).trans hc, fun s h => ?_, fun s h => ?_⟩
  · rcases Role.merge_bless h with d | d
    · exact hp s d
    · unfold filterRole at d
      simp only at d
      split at d
      · next c => exact hp' c s d
      · cases d
  · rcases Role.merge_self h with d | d
    · exact hq s d
    · unfold filterRole at d
      simp only at d
      split at d
      · next c => exact hq' c s d
      · cases d

theorem Role.confirm_cases (r : Role) : r.confirm = { confirmed := (r.byBless.getD (r.bySelf.getD r.confirmed)) } := by
  unfold Role.confirm
  cases r.byBless <;> cases r.bySelf <;> rfl

/-! ## Who asked for what -/

theorem assocSet_mem {c s : Nat} {e : Nat × Nat} : ∀ {l : List (Nat × Nat)}, e ∈ assocSet l c s → e ∈ l ∨ e = (c, s) := by
  intro l
  induction l with
  | nil => intro h; exact .inr (List.mem_singleton.1 h)
  | cons d l ih =>
    intro h
    unfold assocSet at h
    split at h
    · rcases List.mem_cons.1 h with d' | d'
      · exact .inr d'
      · exact .inl (List.mem_cons_of_mem _ d')
    · rcases List.mem_cons.1 h with d' | d'
      · exact .inl (d' ▸ List.mem_cons_self ..)
      · rcases ih d' with d' | d'
        · exact .inl (List.mem_cons_of_mem _ d')
        · exact .inr d'

theorem mergeSelf_mem {conf : List Nat} : ∀ (l acc out : List (Nat × Nat)), mergeSelf conf l acc = some out → ∀ e ∈ out, e ∈ acc ∨ e ∈ l := by
  intro l
  induction l with
  | nil => intro acc out h e he; cases h; exact .inl he
  | cons d l ih =>
    intro acc out h e he
    obtain ⟨c, s⟩ := d
    unfold mergeSelf at h
    cases ho : conf[c]? with
    | none => rw [ho] at h; cases h
    | some o =>
      rw [ho] at h
      simp only at h
      rcases ih _ out h e he with d | d
      · split at d
        · rcases assocSet_mem d with d | d
          · exact .inl d
          · exact .inr (d ▸ List.mem_cons_self ..)
        · exact .inl d
      · exact .inr (List.mem_cons_of_mem _ d)

theorem foldSet_cases (c : Nat) : ∀ (l : List (Nat × Nat)) (conf : List Nat),
    (l.foldl (fun l e => l.set e.1 e.2) conf)[c]? = conf[c]? ∨
    ∃ s, (c, s) ∈ l ∧ (l.foldl (fun l e => l.set e.1 e.2) conf)[c]? = some s := by
  intro l
  induction l with
  | nil => intro conf; exact .inl rfl
  | cons d l ih =>
    intro conf
    rw [List.foldl_cons]
    rcases ih (conf.set d.1 d.2) with h | ⟨s, h1, h2⟩
    · rw [h, List.getElem?_set]
      by_cases e : d.1 = c
      · rw [if_pos e]
        by_cases b : d.1 < conf.length
        · rw [if_pos b]; exact .inr ⟨d.2, by rw [← e]; exact List.mem_cons_self .., rfl⟩
        · rw [if_neg b]; left; rw [List.getElem?_eq_none (by omega)]
      · rw [if_neg e]; exact .inl rfl
    · exact .inr ⟨s, List.mem_cons_of_mem _ h1, h2⟩

theorem mergeQueues_get (host : Nat) (as : List Nat) (src un : List (List Bytes)) (c : Nat) :
    (mergeQueues host as src un)[c]? = un[c]? ∨ (as[c]? = some host ∧ (mergeQueues host as src un)[c]? = src[c]?) := by
  unfold mergeQueues
  rw [List.getElem?_map, List.getElem?_zipIdx]
  cases hu : un[c]? with
  | none => left; rfl
  | some q =>
    simp only [Option.map_some, Nat.zero_add]
    cases ha : as[c]? with
    | none => left; rfl
    | some a =>
      cases hq : src[c]? with
      | none => left; rfl
      | some q' =>
        simp only
        by_cases e : a = host
        · rw [if_pos e, e]; exact .inr ⟨rfl, rfl⟩
        · rw [if_neg e]; exact .inl rfl

/-- What is pending while the results are merged. -/
structure Pending (u : PState Boxes) (rs : List AccResult) (v : PState Boxes) : Prop where
  manager : v.manager = u.manager ∨ ∃ r ∈ rs, r.host = u.manager ∧ v.manager = r.p.manager
  always : v.always = u.always ∨ ∃ r ∈ rs, r.host = u.manager ∧ v.always = r.p.always
  designate : RoleFrom PState.designate u.manager u.designate.confirmed rs v
  registrar : RoleFrom PState.registrar u.manager u.registrar.confirmed rs v
  assign : v.assign.confirmed = u.assign.confirmed
  bless : ∀ l, v.assign.byBless = some l → ∃ r ∈ rs, r.host = u.manager ∧ r.p.assign.byBless = some l
  own : ∀ c s, (c, s) ∈ v.assign.bySelf → ∃ r ∈ rs, u.assign.confirmed[c]? = some r.host ∧ (c, s) ∈ r.p.assign.bySelf
  queue : ∀ c : Nat, v.authQueue[c]? = u.authQueue[c]? ∨ ∃ r ∈ rs,
    u.assign.confirmed[c]? = some r.host ∧ v.authQueue[c]? = r.p.authQueue[c]?
  staging : v.staging = u.staging ∨ ∃ r ∈ rs, r.host = u.designate.confirmed ∧ v.staging = r.p.staging

theorem pending_start (hs : Settled u) : Pending u rs u where
  manager := .inl rfl
  always := .inl rfl
  designate := ⟨rfl, (fun s h => by rw [hs.designate.1] at h; cases h), (fun s h => by rw [hs.designate.2] at h; cases h)⟩
  registrar := ⟨rfl, (fun s h => by rw [hs.registrar.1] at h; cases h), (fun s h => by rw [hs.registrar.2] at h; cases h)⟩
  assign := rfl
  bless := fun l h => by rw [hs.assign.1] at h; cases h
  own := fun c s h => by rw [hs.assign.2] at h; cases h
  queue := fun _ => .inl rfl
  staging := .inl rfl

theorem pending_step {r : AccResult} {v v' : PState Boxes} (hr : r ∈ rs) (hc : r.p.assign.confirmed = u.assign.confirmed)
    (h : mergePrivileges (Base.of u) r.host v r.p = some v') (P : Pending u rs v) : Pending u rs v' := by
  unfold mergePrivileges at h
  simp only at h
  cases ha : v.assign.merge (filterAssigns (Base.of u) r.host r.p.assign) with
  | none => rw [ha] at h; cases h
  | some as =>
    rw [ha] at h
    cases h
    have hconf : as.confirmed = v.assign.confirmed ∧ (∀ l, as.byBless = some l → v.assign.byBless = some l ∨ (r.host = u.manager ∧ r.p.assign.byBless = some l)) ∧
        (∀ e ∈ as.bySelf, e ∈ v.assign.bySelf ∨ (u.assign.confirmed[e.1]? = some r.host ∧ e ∈ r.p.assign.bySelf)) := by
      unfold Assigns.merge at ha
      cases hb : (filterAssigns (Base.of u) r.host r.p.assign).byBless with
      | some l =>
        rw [hb] at ha
        cases ha
        refine ⟨rfl, fun l' h' => .inr ?_, fun e he => .inl he⟩
        cases h'
        unfold filterAssigns at hb
        simp only at hb
        split at hb
        · next c => exact ⟨c, hb⟩
        · cases hb
      | none =>
        rw [hb] at ha
        simp only at ha
        cases hm : mergeSelf (filterAssigns (Base.of u) r.host r.p.assign).confirmed (filterAssigns (Base.of u) r.host r.p.assign).bySelf v.assign.bySelf with
        | none => rw [hm] at ha; cases ha
        | some l =>
          rw [hm] at ha
          cases ha
          refine ⟨rfl, fun l' h' => .inl h', fun e he => ?_⟩
          rcases mergeSelf_mem _ _ _ hm e he with d | d
          · exact .inl d
          · obtain ⟨d1, d2⟩ := List.mem_filter.1 d
            exact .inr ⟨by simpa [Base.of] using d2, d1⟩
    refine ⟨?_, ?_, ?_, ?_, ?_, ?_, ?_, ?_, ?_⟩
    · simp only
      split
      · next c => exact .inr ⟨r, hr, c.1, rfl⟩
      · exact P.manager
    · simp only
      split
      · next c => exact .inr ⟨r, hr, c.1, rfl⟩
      · exact P.always
    · exact roleFrom_merge P.designate.1 P.designate.2.1 P.designate.2.2 (fun c s h => ⟨r, hr, c, h⟩) (fun c s h => ⟨r, hr, c, h⟩)
    · exact roleFrom_merge P.registrar.1 P.registrar.2.1 P.registrar.2.2 (fun c s h => ⟨r, hr, c, h⟩) (fun c s h => ⟨r, hr, c, h⟩)
    · exact hconf.1.trans P.assign
    · intro l hl
      rcases hconf.2.1 l hl with d | d
      · exact P.bless l d
      · exact ⟨r, hr, d⟩
    · intro c s he
      rcases hconf.2.2 _ he with d | d
      · exact P.own c s d
      · exact ⟨r, hr, d⟩
    · intro c
      rcases mergeQueues_get r.host r.p.assign.confirmed r.p.authQueue v.authQueue c with d | ⟨d1, d2⟩
      · rcases P.queue c with e | ⟨r', e1, e2, e3⟩
        · exact .inl (d.trans e)
        · exact .inr ⟨r', e1, e2, d.trans e3⟩
      · exact .inr ⟨r, hr, hc ▸ d1, d2⟩
    · simp only
      split
      · next c => exact .inr ⟨r, hr, c.1.trans P.designate.1, rfl⟩
      · exact P.staging

theorem pending_confirm {v : PState Boxes} (P : Pending u rs v) : Authorised u rs v.confirm where
  manager := P.manager
  always := P.always
  designate := by
    show v.designate.confirm.confirmed = _ ∨ ∃ r ∈ rs, (_ ∧ r.p.designate.byBless = some v.designate.confirm.confirmed) ∨ (_ ∧ r.p.designate.bySelf = some v.designate.confirm.confirmed)
    rw [Role.confirm_cases]
    obtain ⟨h1, h2, h3⟩ := P.designate
    change v.designate.confirmed = _ at h1
    cases hb : v.designate.byBless with
    | some s => obtain ⟨r, e1, e2, e3⟩ := h2 s hb; exact .inr ⟨r, e1, .inl ⟨e2, e3⟩⟩
    | none =>
      cases ho : v.designate.bySelf with
      | some s => obtain ⟨r, e1, e2, e3⟩ := h3 s ho; exact .inr ⟨r, e1, .inr ⟨e2, e3⟩⟩
      | none => exact .inl h1
  registrar := by
    show v.registrar.confirm.confirmed = _ ∨ ∃ r ∈ rs, (_ ∧ r.p.registrar.byBless = some v.registrar.confirm.confirmed) ∨ (_ ∧ r.p.registrar.bySelf = some v.registrar.confirm.confirmed)
    rw [Role.confirm_cases]
    obtain ⟨h1, h2, h3⟩ := P.registrar
    change v.registrar.confirmed = _ at h1
    cases hb : v.registrar.byBless with
    | some s => obtain ⟨r, e1, e2, e3⟩ := h2 s hb; exact .inr ⟨r, e1, .inl ⟨e2, e3⟩⟩
    | none =>
      cases ho : v.registrar.bySelf with
      | some s => obtain ⟨r, e1, e2, e3⟩ := h3 s ho; exact .inr ⟨r, e1, .inr ⟨e2, e3⟩⟩
      | none => exact .inl h1
  assign := by
    intro c
    show v.assign.confirm.confirmed[c]? = _ ∨ ∃ r ∈ rs,
      (_ ∧ ∃ l, _ ∧ v.assign.confirm.confirmed[c]? = _) ∨ (_ ∧ ∃ s, _ ∧ v.assign.confirm.confirmed[c]? = _)
    unfold Assigns.confirm
    cases hb : v.assign.byBless with
    | some l => obtain ⟨r, e1, e2, e3⟩ := P.bless l hb; exact .inr ⟨r, e1, .inl ⟨e2, l, e3, rfl⟩⟩
    | none =>
      rcases foldSet_cases c v.assign.bySelf v.assign.confirmed with d | ⟨s, d1, d2⟩
      · exact .inl (d.trans (by rw [P.assign]))
      · obtain ⟨r, e1, e2, e3⟩ := P.own c s d1
        exact .inr ⟨r, e1, .inr ⟨e2, s, e3, d2⟩⟩
  queue := P.queue
  staging := P.staging

/-! ## Exact resolution of a role -/

theorem resultOf_cons (r : AccResult) (l : List AccResult) (s : Nat) :
    resultOf (r :: l) s = if r.host = s then some r else resultOf l s := by
  unfold resultOf
  rw [List.find?_cons]
  by_cases c : r.host = s
  · simp [c]
  · have : (r.host == s) = false := by simp [c]
    rw [this, if_neg c]

theorem resultOf_none {l : List AccResult} {s : Nat} (h : s ∉ l.map AccResult.host) : resultOf l s = none := by
  unfold resultOf
  rw [List.find?_eq_none]
  intro r hr
  simp only [beq_iff_eq]
  intro c
  exact h (c ▸ List.mem_map_of_mem hr)

/-- A change, as opposed to repeating the old value. -/
def news (o : Nat) (v : Option Nat) : Option Nat := v.filter (· ≠ o)

theorem news_some (o s : Nat) : news o (some s) = if s = o then none else some s := by
  unfold news; by_cases c : s = o <;> simp [Option.filter_some, c]
theorem news_none (o : Nat) : news o none = none := rfl
theorem merge_exact (mgr o host : Nat) (a c : Role) (hc : c.confirmed = o) :
    (a.merge (filterRole mgr o host c)).byBless = (if host = mgr then news o c.byBless else none).or a.byBless ∧
    (a.merge (filterRole mgr o host c)).bySelf =
      (if host = o ∧ ¬ (host = mgr ∧ (news o c.byBless).isSome) then news o c.bySelf else none).or a.bySelf := by
  unfold Role.merge Role.mergeOwn filterRole
  obtain ⟨cc, cb, cs⟩ := c
  simp only at hc
  subst hc
  by_cases h1 : host = mgr <;> by_cases h2 : host = cc <;> rcases cb with _ | x <;> rcases cs with _ | y <;>
    simp only [h1, h2, news_some, news_none]
  all_goals (try by_cases hx : x = cc) <;> (try by_cases hy : y = cc) <;> simp_all

/-- The fold of the merges over distinct hosts. -/
theorem role_fold (role : PState Boxes → Role) (mgr o : Nat) : ∀ (l : List AccResult) (R : Role), (l.map AccResult.host).Nodup →
    (∀ r ∈ l, (role r.p).confirmed = o) →
    (l.foldl (fun R r => R.merge (filterRole mgr o r.host (role r.p))) R).byBless =
      (news o ((resultOf l mgr).bind fun r => (role r.p).byBless)).or R.byBless ∧
    (news o ((resultOf l mgr).bind fun r => (role r.p).byBless) = none →
      (l.foldl (fun R r => R.merge (filterRole mgr o r.host (role r.p))) R).bySelf =
      (news o ((resultOf l o).bind fun r => (role r.p).bySelf)).or R.bySelf) ∧
    (l.foldl (fun R r => R.merge (filterRole mgr o r.host (role r.p))) R).confirmed = R.confirmed := by
  intro l
  induction l with
  | nil => intro R _ _; simp [resultOf, news]
  | cons r l ih =>
    intro R hn hl
    obtain ⟨hn1, hn2⟩ := List.nodup_cons.1 hn
    obtain ⟨i1, i2, i3⟩ := ih (R.merge (filterRole mgr o r.host (role r.p))) hn2 (fun r' h' => hl r' (List.mem_cons_of_mem _ h'))
    obtain ⟨e1, e2⟩ := merge_exact mgr o r.host R (role r.p) (hl r (List.mem_cons_self ..))
    rw [List.foldl_cons, resultOf_cons, resultOf_cons]
    refine ⟨?_, ?_, ?_⟩
    · rw [i1, e1]
      by_cases c : r.host = mgr
      · rw [if_pos c, if_pos c, resultOf_none (c ▸ hn1)]; simp [news]
      · rw [if_neg c, if_neg c]; simp
    · intro hno
      by_cases c : r.host = mgr
      · rw [if_pos c] at hno
        rw [i2 (by rw [resultOf_none (c ▸ hn1)]; rfl), e2]
        have hno' : news o (role r.p).byBless = none := hno
        by_cases d : r.host = o
        · rw [if_pos ⟨d, by rw [hno']; simp⟩, if_pos d, resultOf_none (d ▸ hn1)]; simp [news]
        · rw [if_neg (fun h => d h.1), if_neg d]; simp
      · rw [if_neg c] at hno
        rw [i2 hno, e2]
        by_cases d : r.host = o
        · rw [if_pos ⟨d, fun h => c h.1⟩, if_pos d, resultOf_none (d ▸ hn1)]; simp [news]
        · rw [if_neg (fun h => d h.1), if_neg d]; simp
    · rw [i3, Role.merge_conf]

/-- Through a round in which no host is ejected, a component of the union is the fold of its merges. -/
theorem mergeResults_fold {α : Type} (O : RoundOk g D u rs) (get : PState Boxes → α) (f : α → AccResult → α)
    (hb : ∀ v bs, get { v with boxes := bs } = get v)
    (step : ∀ r ∈ rs, ∀ v v', mergePrivileges (Base.of u) r.host v r.p = some v' → get v' = f (get v) r) :
    ∀ (l : List AccResult) (m m' : Merged), (∀ r ∈ l, r ∈ rs) → Up g rs m.st →
    mergeResults g env (Base.of u) metered l m = some m' → get m'.st.u = l.foldl f (get m.st.u) := by
  intro l
  induction l with
  | nil => intro m m' _ _ h; cases h; rfl
  | cons r l ih =>
    intro m m' hl hup h
    unfold mergeResults at h
    cases h1 : mergeResult g env (Base.of u) metered m r with
    | none => rw [h1] at h; cases h
    | some m1 =>
      rw [h1] at h
      have hr := hl r (List.mem_cons_self ..)
      obtain ⟨⟨v, bs, p1, p2⟩, p3, _⟩ := mergeResult_spec O hr hup h1
      rw [ih m1 m' (fun r' h' => hl r' (List.mem_cons_of_mem _ h')) p3 h, List.foldl_cons]
      congr 1
      rw [p2, hb, step r hr _ _ p1]

end Fastroll.Svc
