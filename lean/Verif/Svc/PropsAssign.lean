import Verif.Svc.PropsMerge

/-!
# C24: who assigns a core after a round

If the manager of the round blesses, the assigners are those it names. If it does not, the assigner of each core is the
one its present assigner hands the core to, and stays if it hands it to nobody.
-/
namespace Fastroll.Svc
open Fastroll.Pvm

/-- The round of the services 7 and 8 in which 8, the assigner of core 1, hands the core to 9. -/
def ExM.shared : PState Boxes := { ExM.base with assign := { confirmed := [7, 8] } }
def ExM.r7a : AccResult := { ExM.r7 with p := { ExM.r7.p with assign := { confirmed := [7, 8], byBless := none, bySelf := [(1, 6)] } } }
def ExM.r8a : AccResult := { ExM.r8 with p := { ExM.r8.p with assign := { confirmed := [7, 8], byBless := none, bySelf := [(1, 9)] } } }

theorem assocSet_keep {c s k v : Nat} (hk : k ≠ c) : ∀ {l : List (Nat × Nat)}, (c, s) ∈ l → (c, s) ∈ assocSet l k v := by
  intro l
  induction l with
  | nil => intro h; cases h
  | cons d l ih =>
    intro h
    unfold assocSet
    split
    · rename_i e
      rcases List.mem_cons.1 h with h | h
      · rw [← h] at e; exact absurd e.symm hk
      · exact List.mem_cons_of_mem _ h
    · rcases List.mem_cons.1 h with h | h
      · exact h ▸ List.mem_cons_self ..
      · exact List.mem_cons_of_mem _ (ih h)

theorem assocSet_has (k v : Nat) : ∀ (l : List (Nat × Nat)), (k, v) ∈ assocSet l k v
  | [] => List.mem_singleton.2 rfl
  | d :: l => by
    unfold assocSet
    split
    · exact List.mem_cons_self ..
    · exact List.mem_cons_of_mem _ (assocSet_has k v l)

/-- Once a core is handed to `t`, and to nobody else, it stays so. -/
theorem mergeSelf_has {conf : List Nat} {c o t : Nat} (hc : conf[c]? = some o) (ht : t ≠ o) : ∀ (l acc out : List (Nat × Nat)),
    mergeSelf conf l acc = some out → (∀ s, (c, s) ∈ l → s = t) → ((c, t) ∈ acc ∨ (c, t) ∈ l) → (c, t) ∈ out := by
  intro l
  induction l with
  | nil => intro acc out h _ hm; cases h; exact hm.elim id (fun h => by cases h)
  | cons d l ih =>
    intro acc out h hu hm
    obtain ⟨k, s⟩ := d
    unfold mergeSelf at h
    cases ho : conf[k]? with
    | none => rw [ho] at h; cases h
    | some p =>
      rw [ho] at h
      simp only at h
      refine ih _ out h (fun s hs => hu s (List.mem_cons_of_mem _ hs)) ?_
      by_cases e : k = c
      · subst e
        have hs : s = t := hu s (List.mem_cons_self ..)
        have hp : p = o := by rw [hc] at ho; exact (Option.some.inj ho).symm
        subst hs; subst hp
        rw [if_pos ht]
        exact .inl (assocSet_has ..)
      · rcases hm with hm | hm
        · left
          split
          · exact assocSet_keep e hm
          · exact hm
        · rcases List.mem_cons.1 hm with hm | hm
          · exact absurd (Prod.mk.inj hm).1.symm e
          · exact .inr hm

theorem foldSet_keeps {c t : Nat} : ∀ (l : List (Nat × Nat)) (conf : List Nat), (∀ s, (c, s) ∈ l → s = t) → conf[c]? = some t →
    (l.foldl (fun l e => l.set e.1 e.2) conf)[c]? = some t := by
  intro l
  induction l with
  | nil => intro conf _ h; exact h
  | cons d l ih =>
    intro conf hu h
    rw [List.foldl_cons]
    refine ih _ (fun s hs => hu s (List.mem_cons_of_mem _ hs)) ?_
    obtain ⟨k, s⟩ := d
    rw [List.getElem?_set]
    by_cases e : k = c
    · subst e
      rw [if_pos rfl, if_pos (List.getElem?_eq_some_iff.1 h).1, hu s (List.mem_cons_self ..)]
    · rw [if_neg e]; exact h

theorem foldSet_gets {c t : Nat} : ∀ (l : List (Nat × Nat)) (conf : List Nat), (∀ s, (c, s) ∈ l → s = t) → (c, t) ∈ l → c < conf.length →
    (l.foldl (fun l e => l.set e.1 e.2) conf)[c]? = some t := by
  intro l
  induction l with
  | nil => intro conf _ h; cases h
  | cons d l ih =>
    intro conf hu h hl
    rw [List.foldl_cons]
    have hu' : ∀ s, (c, s) ∈ l → s = t := fun s hs => hu s (List.mem_cons_of_mem _ hs)
    rcases List.mem_cons.1 h with e | e
    · refine foldSet_keeps l _ hu' ?_
      rw [← e]
      simp only
      rw [List.getElem?_set, if_pos rfl, if_pos hl]
    · exact ih _ hu' e (by rw [List.length_set]; exact hl)

/-- The step of the merge for the assigners. -/
def assignStep (u : PState Boxes) (a : Assigns) (r : AccResult) : Assigns :=
  (a.merge (filterAssigns (Base.of u) r.host r.p.assign)).getD a

theorem mergeSelf_ok {conf : List Nat} : ∀ (l acc : List (Nat × Nat)), (∀ e ∈ l, (conf[e.1]?).isSome) → ∃ out, mergeSelf conf l acc = some out := by
  intro l
  induction l with
  | nil => intro acc _; exact ⟨acc, rfl⟩
  | cons d l ih =>
    intro acc h
    obtain ⟨k, s⟩ := d
    unfold mergeSelf
    obtain ⟨p, hp⟩ := Option.isSome_iff_exists.1 (h (k, s) (List.mem_cons_self ..))
    simp only at hp
    rw [hp]
    exact ih _ fun e he => h e (List.mem_cons_of_mem _ he)

variable {g : Global} {D : Nat → Prop} {env : Env} {metered : Nat → Bool} {u : PState Boxes} {rs : List AccResult} {m : Merged}

/-- A result without a blessing that counts. -/
theorem assignStep_self {a : Assigns} {r : AccResult} (hc : r.p.assign.confirmed = u.assign.confirmed)
    (hb : r.host = u.manager → r.p.assign.byBless = none) :
    ∃ out, mergeSelf u.assign.confirmed (r.p.assign.bySelf.filter fun e => u.assign.confirmed[e.1]? == some r.host) a.bySelf = some out ∧
      assignStep u a r = { a with bySelf := out } := by
  obtain ⟨out, ho⟩ := mergeSelf_ok (conf := u.assign.confirmed) (r.p.assign.bySelf.filter fun e => u.assign.confirmed[e.1]? == some r.host) a.bySelf
    (by intro e he
        have := (List.mem_filter.1 he).2
        rw [eq_of_beq this]; rfl)
  refine ⟨out, ho, ?_⟩
  unfold assignStep Assigns.merge
  have h1 : (filterAssigns (Base.of u) r.host r.p.assign).byBless = none := by
    show (if r.host = u.manager then r.p.assign.byBless else none) = none
    split
    · exact hb (by assumption)
    · rfl
  have h2 : mergeSelf (filterAssigns (Base.of u) r.host r.p.assign).confirmed (filterAssigns (Base.of u) r.host r.p.assign).bySelf a.bySelf = some out := by
    show mergeSelf r.p.assign.confirmed _ a.bySelf = some out
    rw [hc]; exact ho
  rw [h1]
  simp only
  rw [h2]
  rfl

theorem assign_fold {c o t : Nat} (ho : u.assign.confirmed[c]? = some o) : ∀ (l : List AccResult) (a : Assigns),
    (∀ r ∈ l, r.p.assign.confirmed = u.assign.confirmed) → (∀ r ∈ l, r.host = u.manager → r.p.assign.byBless = none) →
    (∀ r ∈ l, r.host = o → ∀ s, (c, s) ∈ r.p.assign.bySelf → s = t) → (∀ s, (c, s) ∈ a.bySelf → s = t) →
    (l.foldl (assignStep u) a).byBless = a.byBless ∧ (l.foldl (assignStep u) a).confirmed = a.confirmed ∧
    (∀ s, (c, s) ∈ (l.foldl (assignStep u) a).bySelf → s = t) ∧
    (t ≠ o → ((c, t) ∈ a.bySelf ∨ ∃ r ∈ l, r.host = o ∧ (c, t) ∈ r.p.assign.bySelf) → (c, t) ∈ (l.foldl (assignStep u) a).bySelf) := by
  intro l
  induction l with
  | nil =>
    intro a _ _ _ h
    exact ⟨rfl, rfl, h, fun _ h => h.elim id fun ⟨_, h, _⟩ => by cases h⟩
  | cons r l ih =>
    intro a hc hb hu ha
    rw [List.foldl_cons]
    obtain ⟨out, h1, h2⟩ := assignStep_self (a := a) (hc r (List.mem_cons_self ..)) (hb r (List.mem_cons_self ..))
    have own : ∀ s, (c, s) ∈ (r.p.assign.bySelf.filter fun e => u.assign.confirmed[e.1]? == some r.host) → s = t := by
      intro s hs
      obtain ⟨k1, k2⟩ := List.mem_filter.1 hs
      have k2 : u.assign.confirmed[c]? = some r.host := eq_of_beq k2
      exact hu r (List.mem_cons_self ..) (by rw [ho] at k2; exact (Option.some.inj k2).symm) s k1
    have all : ∀ s, (c, s) ∈ (assignStep u a r).bySelf → s = t := by
      rw [h2]
      intro s hs
      rcases mergeSelf_mem _ _ _ h1 _ hs with k | k
      · exact ha s k
      · exact own s k
    obtain ⟨i1, i2, i3, i4⟩ := ih (assignStep u a r) (fun r hr => hc r (List.mem_cons_of_mem _ hr)) (fun r hr => hb r (List.mem_cons_of_mem _ hr))
      (fun r hr => hu r (List.mem_cons_of_mem _ hr)) all
    refine ⟨by rw [i1, h2], by rw [i2, h2], i3, fun ht hm => i4 ht ?_⟩
    rw [h2]
    rcases hm with hm | ⟨r', hr', e, hm⟩
    · exact .inl (mergeSelf_has ho ht _ _ _ h1 own (.inl hm))
    · rcases List.mem_cons.1 hr' with k | k
      · subst k
        exact .inl (mergeSelf_has ho ht _ _ _ h1 own (.inr (List.mem_filter.2 ⟨hm, by rw [ho, e]; exact beq_self_eq_true _⟩)))
      · exact .inr ⟨r', k, e, hm⟩

theorem bless_fold {L : List Nat} : ∀ (l : List AccResult) (a : Assigns),
    (∀ r ∈ l, r.p.assign.confirmed = u.assign.confirmed) → (∀ r ∈ l, r.host = u.manager → r.p.assign.byBless = some L) →
    (a.byBless = some L ∨ ∃ r ∈ l, r.host = u.manager) → (l.foldl (assignStep u) a).byBless = some L := by
  intro l
  induction l with
  | nil => intro a _ _ h; exact h.elim id fun ⟨_, h, _⟩ => by cases h
  | cons r l ih =>
    intro a hc hb h
    rw [List.foldl_cons]
    refine ih _ (fun r hr => hc r (List.mem_cons_of_mem _ hr)) (fun r hr => hb r (List.mem_cons_of_mem _ hr)) ?_
    by_cases e : r.host = u.manager
    · left
      have : (filterAssigns (Base.of u) r.host r.p.assign).byBless = some L := by
        show (if r.host = u.manager then r.p.assign.byBless else none) = some L
        rw [if_pos e]; exact hb r (List.mem_cons_self ..) e
      unfold assignStep Assigns.merge
      rw [this]; rfl
    · obtain ⟨out, _, h2⟩ := assignStep_self (a := a) (hc r (List.mem_cons_self ..)) (fun k => absurd k e)
      rw [h2]
      rcases h with h | ⟨r', hr', k⟩
      · exact .inl h
      · rcases List.mem_cons.1 hr' with d | d
        · subst d; exact absurd k e
        · exact .inr ⟨r', d, k⟩

theorem same_host : ∀ {l : List AccResult}, (l.map AccResult.host).Nodup → ∀ {r r' : AccResult}, r ∈ l → r' ∈ l → r.host = r'.host → r = r' := by
  intro l
  induction l with
  | nil => intro _ _ _ h; cases h
  | cons d l ih =>
    intro hn r r' hr hr' e
    rw [List.map_cons, List.nodup_cons] at hn
    rcases List.mem_cons.1 hr with k | k <;> rcases List.mem_cons.1 hr' with k' | k'
    · rw [k, k']
    · exact absurd (List.mem_map.2 ⟨r', k', by rw [← e, k]⟩) hn.1
    · exact absurd (List.mem_map.2 ⟨r, k, by rw [e, k']⟩) hn.1
    · exact ih hn.2 k k' e

theorem assign_final (O : RoundOk g D u rs) (h : mergeRound g env metered u rs = some m) :
    m.st.u.assign = (rs.foldl (assignStep u) u.assign).confirm := by
  unfold mergeRound at h
  cases hm : mergeResults g env (Base.of u) metered rs { st := { u := u } } with
  | none => rw [hm] at h; cases h
  | some m1 =>
    rw [hm] at h
    cases h
    show m1.st.u.assign.confirm = _
    rw [mergeResults_fold O PState.assign (assignStep u) (fun _ _ => rfl) ?_ rs _ m1 (fun _ h => h) (up_start O) hm]
    intro r _ v v' hv
    unfold mergePrivileges at hv
    simp only at hv
    unfold assignStep
    cases ha : v.assign.merge (filterAssigns (Base.of u) r.host r.p.assign) with
    | none => rw [ha] at hv; cases hv
    | some as => rw [ha] at hv; cases hv; rfl

/-- **The assigners of the cores.** With the services of the round alive throughout: if the manager of before blesses, the
assigners are the list it gives. If it does not, the assigner of a core hands it to whomever it names, whatever the others
ask for, and keeps it if it names nobody. -/
theorem C24_assigners_resolved (O : RoundOk g D u rs) (hs : Settled u) (hk : ∀ r ∈ rs, r.p.assign.confirmed = u.assign.confirmed)
    (h : mergeRound g env metered u rs = some m) :
    (∀ r ∈ rs, r.host = u.manager → ∀ l, r.p.assign.byBless = some l → m.st.u.assign.confirmed = l) ∧
    ((∀ r ∈ rs, r.host = u.manager → r.p.assign.byBless = none) → ∀ c o, u.assign.confirmed[c]? = some o →
      (∀ r ∈ rs, r.host = o → ∀ s, (c, s) ∈ r.p.assign.bySelf → (∀ s', (c, s') ∈ r.p.assign.bySelf → s' = s) →
        m.st.u.assign.confirmed[c]? = some s) ∧
      ((∀ r ∈ rs, r.host = o → ∀ s, (c, s) ∉ r.p.assign.bySelf) → m.st.u.assign.confirmed[c]? = some o)) := by
  rw [assign_final O h]
  constructor
  · intro r hr e l hl
    have := bless_fold (u := u) (L := l) rs u.assign hk (fun r' hr' e' => by rw [same_host O.hosts hr' hr (e'.trans e.symm)]; exact hl) (.inr ⟨r, hr, e⟩)
    unfold Assigns.confirm
    rw [this]
  · intro hb c o ho
    have key : ∀ t, (∀ r ∈ rs, r.host = o → ∀ s, (c, s) ∈ r.p.assign.bySelf → s = t) →
        (t = o ∨ ∃ r ∈ rs, r.host = o ∧ (c, t) ∈ r.p.assign.bySelf) →
        (rs.foldl (assignStep u) u.assign).confirm.confirmed[c]? = some t := by
      intro t hu ht
      obtain ⟨f1, f2, f3, f4⟩ := assign_fold ho rs u.assign hk hb hu (by rw [hs.assign.2]; intro s hs; cases hs)
      unfold Assigns.confirm
      rw [f1, hs.assign.1]
      simp only
      rw [f2]
      by_cases e : t = o
      · subst e; exact foldSet_keeps _ _ f3 ho
      · exact foldSet_gets _ _ f3 (f4 e (.inr (ht.resolve_left e))) (List.getElem?_eq_some_iff.1 ho).1
    refine ⟨fun r hr e s hm hu => key s ?_ (.inr ⟨r, hr, e, hm⟩), fun hn => key o (fun r hr e s hm => absurd hm (hn r hr e s)) (.inl rfl)⟩
    intro r' hr' e' s' hs'
    rw [same_host O.hosts hr' hr (e'.trans e.symm)] at hs'
    exact hu s' hs'

theorem ExM.sharedOk : RoundOk Ex.g (fun s => s = 7 ∨ s = 8) ExM.shared [ExM.r7a, ExM.r8a] where
  base := fun _ _ h => by cases h
  good := by
    intro r hr
    simp only [List.mem_cons, List.not_mem_nil, or_false] at hr
    rcases hr with h | h <;> subst h
    · exact boxes_good good7
    · exact boxes_good fun e he => good8 e (List.mem_append_left _ he)
  hosts := by decide
  own := by decide
  alive := by decide
  stay := by decide
  lost := fun _ _ _ h1 h2 => absurd h2 h1

/-- Service 8 hands its core to 9; that 7 asks for the core too changes nothing, and 7 keeps its own. -/
example : ∃ m, mergeRound Ex.g Ex.env (fun _ => true) ExM.shared [ExM.r7a, ExM.r8a] = some m ∧
    m.st.u.assign.confirmed[1]? = some 9 ∧ m.st.u.assign.confirmed[0]? = some 7 := by
  cases hm : mergeRound Ex.g Ex.env (fun _ => true) ExM.shared [ExM.r7a, ExM.r8a] with
  | none => exact absurd (show (mergeRound Ex.g Ex.env (fun _ => true) ExM.shared [ExM.r7a, ExM.r8a]).isSome = true by decide +kernel) (by rw [hm]; simp)
  | some m =>
    have R := (C24_assigners_resolved ExM.sharedOk ⟨⟨rfl, rfl⟩, ⟨rfl, rfl⟩, ⟨rfl, rfl⟩⟩ (by decide) hm).2 (by decide)
    exact ⟨m, rfl, (R 1 8 rfl).1 ExM.r8a (by simp) rfl 9 (by decide) (by intro s' h; simpa [ExM.r8a] using h),
      (R 0 7 rfl).2 (by intro r hr e s; simp only [List.mem_cons, List.not_mem_nil, or_false] at hr; rcases hr with h | h <;> subst h <;> simp [ExM.r7a, ExM.r8a])⟩

end Fastroll.Svc
