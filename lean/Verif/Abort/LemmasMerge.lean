import Verif.Abort.LemmasAcc
import Verif.Svc.LemmasPriv
import Verif.Node.LemmasFit

/-! # Lemmas: when the results of a round cannot be merged -/
namespace Fastroll.Abort
open Fastroll.Pvm Fastroll.Svc Fastroll.Delta
variable {g : Global} {D : Nat → Prop} {env : Env} {mach : Machine}

/-! ## The core lists -/

theorem calls_sized {β : Type} {S : Store β} {cs : List (Nat × VM)} {q q' : Pair β} (h : runCalls (accHost S env) cs q = some q')
    (hx : Sized env.par.cores q.x.p) (hy : Sized env.par.cores q.y.p) : Sized env.par.cores q'.x.p ∧ Sized env.par.cores q'.y.p := by
  refine runCalls_inv (P := fun _ => True) (I := fun q => Sized env.par.cores q.x.p ∧ Sized env.par.cores q.y.p) ?_ cs q ⟨hx, hy⟩ (fun _ _ _ _ => trivial) q' h
  intro c s s' r I _ _ hc
  rcases accHost_cases S env c.1 c.2 s with e | ⟨_, e⟩ | ⟨f, e1, e2⟩
  · rw [hc] at e; simp only at e; rw [e]; exact I
  · rw [hc] at e; simp only at e; rw [e]; exact ⟨I.1, I.1⟩
  · rw [hc] at e2
    injection e2 with _ e2
    rw [e2]
    exact ⟨fn_sized e1 I.1, I.2⟩

theorem accumulate_sized {p : PState Boxes} {a : AccArgs} {r : AccResult} (h : Svc.accumulate g env mach p a = .ok (some r))
    (hp : Sized env.par.cores p) : Sized env.par.cores r.p := by
  rcases accumulate_cases h with ⟨bs, e⟩ | ⟨bs, id, prog, init, out, used, q', e1, e2⟩
  · subst e; exact hp.same rfl
  · obtain ⟨cs, hcs⟩ := invoke_trace e1
    have k := calls_sized hcs (hp.same rfl) (hp.same rfl)
    subst e2
    cases out <;> first | exact k.1 | exact k.2

theorem mergeSelf_none {conf : List Nat} : ∀ (l acc : List (Nat × Nat)), (∀ e ∈ l, e.1 < conf.length) → mergeSelf conf l acc ≠ none
  | [], _, _, h => by cases h
  | (c, s) :: l, acc, hl, h => by
    unfold mergeSelf at h
    rw [List.getElem?_eq_getElem (hl (c, s) (List.mem_cons_self ..))] at h
    exact mergeSelf_none l _ (fun e he => hl e (List.mem_cons_of_mem _ he)) h

theorem privileges_some {b : Base} {host cores : Nat} {u r : PState Boxes} (hr : Sized cores r) : mergePrivileges b host u r ≠ none := by
  intro h
  unfold mergePrivileges at h
  dsimp only at h
  split at h
  · rename_i h1
    unfold Assigns.merge at h1
    split at h1
    · cases h1
    · split at h1
      · rename_i h2
        refine mergeSelf_none _ _ ?_ h2
        intro e he
        have he := (List.mem_filter.1 he).1
        show e.1 < r.assign.confirmed.length
        rw [hr.confirmed]; exact hr.own e he
      · cases h1
  · cases h

theorem merge_sized {b : Base} {host cores : Nat} {u r v : PState Boxes} (h : mergePrivileges b host u r = some v) (hu : Sized cores u) (hr : Sized cores r) : Sized cores v := by
  unfold mergePrivileges at h
  dsimp only at h
  split at h
  · cases h
  rename_i as ha
  cases h
  unfold Assigns.merge filterAssigns at ha
  dsimp only at ha
  split at ha
  · rename_i l hl
    cases ha
    refine ⟨hu.confirmed, fun l' e => ?_, hu.own⟩
    cases e
    split at hl
    · exact hr.bless _ hl
    · cases hl
  · split at ha
    · cases ha
    · rename_i l hl
      cases ha
      refine ⟨hu.confirmed, hu.bless, fun e he => ?_⟩
      rcases mergeSelf_mem _ _ _ hl e he with k | k
      · exact hu.own e k
      · exact hr.own e (List.mem_filter.1 k).1

theorem confirm_sized {cores : Nat} {u : PState Boxes} (h : Sized cores u) : Sized cores u.confirm := by
  have : u.confirm.assign = u.assign.confirm := rfl
  constructor
  all_goals rw [this]; unfold Assigns.confirm
  · split
    · rename_i l e; exact h.bless l e
    · exact (Node.foldSet_length _ _).trans h.confirmed
  · split <;> nofun
  · split <;> nofun

theorem round_sized {W : World} {R : Delta.Round} {cores : Nat} (F : R.Faithful W) (hP : ∀ s ts rs, (W.env s ts rs).par.cores = cores) (h : Sized cores R.start) :
    Sized cores R.finish := by
  obtain ⟨m, h1, h2⟩ := F.merge
  rw [← h2]
  unfold mergeRound at h1
  split at h1
  · cases h1
  · rename_i m' hm
    cases h1
    refine confirm_sized ?_
    refine mergeResults_priv (P := Sized cores) (rs := R.results) (fun v bs hv => hv.same rfl) ?_ R.results _ _ (fun _ h => h) hm h
    intro r hr v v' hv hs
    refine merge_sized hv hs ?_
    have := accumulate_sized (F.run r hr).2 (by rw [hP]; exact h)
    rwa [hP] at this

/-! ## The accounts -/

theorem eraseDups_nodup [BEq α] [LawfulBEq α] : ∀ l : List α, l.eraseDups.Nodup
  | [] => by simp [List.eraseDups]
  | a :: l => by
    rw [List.eraseDups_cons, List.nodup_cons]
    refine ⟨?_, eraseDups_nodup _⟩
    rw [List.mem_eraseDups]
    simp
  termination_by l => l.length
  decreasing_by simp_wf; exact Nat.lt_succ_of_le (List.length_filter_le _ _)

theorem mergeAccount_none {b : Base} {s : Nat} {bx : Box} {st : Svc.Round} (h : mergeAccount g b s bx st = none) :
    counts g b s bx = true ∧ st.Seen s := by
  unfold mergeAccount at h
  split at h
  · rename_i c
    split at h
    · rename_i d; exact ⟨c, d⟩
    · dsimp only at h; split at h <;> cases h
  · cases h

theorem mergeAccounts_none {b : Base} {host : Nat} {bs : Boxes} : ∀ (ks : List Nat) (st : Svc.Round), ks.Nodup → mergeAccounts g b host bs ks st = none →
    ∃ s bx, s ∈ ks ∧ s ≠ host ∧ boxGet bs s = some bx ∧ counts g b s bx = true ∧ st.Seen s
  | [], _, _, h => by cases h
  | k :: ks, st, hn, h => by
    obtain ⟨hk, hn⟩ := List.nodup_cons.1 hn
    unfold mergeAccounts at h
    have ih : mergeAccounts g b host bs ks st = none → ∃ s bx, s ∈ k :: ks ∧ s ≠ host ∧ boxGet bs s = some bx ∧ counts g b s bx = true ∧ st.Seen s := by
      intro h
      obtain ⟨s, bx, h1, h2⟩ := mergeAccounts_none ks st hn h
      exact ⟨s, bx, List.mem_cons_of_mem _ h1, h2⟩
    split at h
    · exact ih h
    · rename_i hne
      split at h
      · exact ih h
      · rename_i bx hb
        split at h
        · rename_i h1
          obtain ⟨c1, c2⟩ := mergeAccount_none h1
          exact ⟨k, bx, List.mem_cons_self .., hne, hb, c1, c2⟩
        · rename_i st1 h1
          obtain ⟨s, bx', k1, k2, k3, k4, k5⟩ := mergeAccounts_none ks st1 hn h
          refine ⟨s, bx', List.mem_cons_of_mem _ k1, k2, k3, k4, ?_⟩
          rcases mergeAccount_spec h1 with ⟨_, e⟩ | ⟨_, _, _, e⟩
          · rw [← e]; exact k5
          · rcases (e s).1 k5 with c | c
            · exact absurd (c ▸ k1) hk
            · exact c

theorem ensure_alive {bs : Boxes} {s : Nat} (h : ((view g bs).metas s).isSome) : ∃ b, boxGet (ensure g bs s) s = some b := by
  unfold ensure
  cases h1 : boxGet bs s with
  | some b => exact ⟨b, h1⟩
  | none =>
    simp only [view, h1] at h
    obtain ⟨m, hm⟩ := Option.isSome_iff_exists.1 h
    rw [hm]
    exact ⟨_, by rw [boxGet_set, if_pos rfl]⟩

theorem ensure_keeps {bs : Boxes} {s : Nat} {b : Box} (h : boxGet bs s = some b) : boxGet (ensure g bs s) s = some b := by
  unfold ensure; rw [h]; exact h

theorem provideOne_some (O : g.NoOrphans) {bs : Boxes} {e : Nat × Bytes} (H : AllGood g D bs) : provideOne g env bs e ≠ none := by
  intro h
  have Hm : AllGood g (fun s => D s ∨ s = e.1) bs := fun s b hb => (H s b hb).mono fun _ => .inl
  unfold provideOne at h
  generalize hq : existsActive g bs e.1 = q at h
  obtain ⟨ex, bs1⟩ := q
  cases ex with
  | false => cases h
  | true =>
    have hx := (active_alive H hq).1
    have I : Inv g (fun s => D s ∨ s = e.1) e.1 bs := ⟨Hm, .inr rfl, hx⟩
    obtain ⟨a1, a2, a3⟩ := existsAct_sim I e.1
    rw [hq] at a1 a2 a3
    simp only at a1 a2 a3 h
    obtain ⟨b1, b2, b3⟩ := getL_sim O a3 e.1 (env.hash e.2, e.2.length % U32)
    generalize hq : getLookup g bs1 e.1 (env.hash e.2, e.2.length % U32) = q at h b1 b2 b3
    obtain ⟨l, bs2⟩ := q
    simp only at b1 b2 b3
    rw [a2] at b1 b2
    cases l with
    | none => cases h
    | some ts =>
      simp only at h
      by_cases c : ts.length ≠ 0
      · rw [if_pos c] at h; cases h
      · rw [if_neg c] at h
        have hts : ts = [] := List.length_eq_zero_iff.1 (Decidable.not_not.1 c)
        subst hts
        unfold insertPreimage at h
        simp only at h
        have H2 := ensure_inv e.1 b3
        obtain ⟨b, hb⟩ := ensure_alive b3.alive
        rw [hb] at h
        simp only at h
        have G := H2.boxes _ _ hb
        have hval : b.info.value.isSome := by
          have := H2.alive
          rw [view_metas_some hb] at this; exact this
        have I3 : Inv g (fun s => D s ∨ s = e.1) e.1 (boxSet (ensure g bs2 e.1) e.1 { b with preimages := insertEntry b.preimages (g.preimages e.1) (env.hash e.2) e.2 }) :=
          set_inv H2 ⟨G.info, G.clean, G.fresh, G.idle, G.storage, insertEntry_good _ _ _ G.preimages _, G.lookups⟩ (fun _ => hval)
        have V3 : (view g (boxSet (ensure g bs2 e.1) e.1 { b with preimages := insertEntry b.preimages (g.preimages e.1) (env.hash e.2) e.2 })).lookups =
            (view g bs).lookups := by
          rw [view_set]
          have hv : view g (ensure g bs2 e.1) = view g bs := (ensure_view _ _ _).trans b2
          simp only
          rw [← view_lookups_some (g := g) hb, hv]; exact ite_self_fun _ _
        generalize boxSet (ensure g bs2 e.1) e.1 { b with preimages := insertEntry b.preimages (g.preimages e.1) (env.hash e.2) e.2 } = bs3 at h I3 V3
        unfold Store.push at h
        rw [show (boxStore g).getL bs3 e.1 (env.hash e.2, e.2.length % U32) = getLookup g bs3 e.1 (env.hash e.2, e.2.length % U32) from rfl] at h
        obtain ⟨d1, d2, d3⟩ := getL_sim O I3 e.1 (env.hash e.2, e.2.length % U32)
        generalize hq : getLookup g bs3 e.1 (env.hash e.2, e.2.length % U32) = q at h d1 d2 d3
        obtain ⟨l, bs4⟩ := q
        simp only at d1 d2 d3
        rw [V3, ← b1] at d1
        subst d1
        simp only [List.length_nil, Nat.zero_lt_succ, if_true, List.nil_append] at h
        change insertLookup g bs4 e.1 (env.hash e.2, e.2.length % U32) [env.slot] = none at h
        unfold insertLookup at h
        obtain ⟨b', hb'⟩ := ensure_alive d3.alive
        simp only [hb'] at h
        cases h

theorem provideAll_some (O : g.NoOrphans) : ∀ (es : List (Nat × Bytes)) {bs : Boxes}, Fit g D bs → provideAll g env es bs ≠ none
  | [], _, _, h => by cases h
  | e :: es, bs, F, h => by
    unfold Svc.provideAll at h
    cases h1 : Svc.provideOne g env bs e with
    | none => exact provideOne_some O F.good h1
    | some b1 => rw [h1] at h; exact provideAll_some O es (F.provideOne O h1) h

/-! ## The round -/

variable {u : PState Boxes} {rs : List AccResult} {metered : Nat → Bool} {cores : Nat}

/-- If a result cannot be merged it creates or ejects an account an earlier one created or ejected. -/
theorem mergeResult_none (N : g.NoOrphans) (O : RoundOk g D u rs) (F' : ∀ r ∈ rs, Fit g D r.p.boxes) (Z : ∀ r ∈ rs, Sized cores r.p) {m : Merged} {r : AccResult} (hr : r ∈ rs)
    (F : Fit g D m.st.u.boxes) (hal : (metaOf g m.st r.host).isSome)
    (h : mergeResult g env (Base.of u) metered m r = none) : ∃ s, Flips (view g u.boxes) r s ∧ m.st.Seen s := by
  unfold mergeResult at h
  cases h1 : mergeOne g (Base.of u) m.st r with
  | some st =>
    exfalso
    rw [h1] at h
    simp only at h
    split at h
    · split at h
      · rename_i h2
        exact provideAll_some N _ (F.mergeOne (F' r hr) h1) h2
      · cases h
    · cases h
  | none =>
    unfold mergeOne at h1
    dsimp only at h1
    obtain ⟨hb, hhb⟩ := ensure_alive hal
    rw [hhb] at h1
    simp only at h1
    split at h1
    · cases h1
    split at h1
    · rename_i h2; exact absurd h2 (privileges_some (Z r hr))
    rename_i v h2
    obtain ⟨bx, hbx⟩ := Option.isSome_iff_exists.1 (O.own r hr)
    rw [ensure_keeps hbx] at h1
    simp only at h1
    obtain ⟨s, bx', k1, k2, k3, k4, k5⟩ := mergeAccounts_none _ _ (eraseDups_nodup _) h1
    exact ⟨s, (touches_iff O hr s).1 ⟨k2, bx', k3, k4⟩, k5⟩

theorem mergeResults_none (N : g.NoOrphans) (O : RoundOk g D u rs) (F' : ∀ r ∈ rs, Fit g D r.p.boxes) (Z : ∀ r ∈ rs, Sized cores r.p) :
    ∀ (l pre : List AccResult) (m : Merged), (pre ++ l) = rs → Up g rs m.st → Fit g D m.st.u.boxes → (∀ r ∈ rs, (metaOf g m.st r.host).isSome) →
    (∀ s, m.st.Seen s → ∃ r ∈ pre, Flips (view g u.boxes) r s) →
    mergeResults g env (Base.of u) metered l m = none →
    ∃ r ∈ rs, ∃ r' ∈ rs, r.host ≠ r'.host ∧ ∃ s, Flips (view g u.boxes) r s ∧ Flips (view g u.boxes) r' s
  | [], _, _, _, _, _, _, _, h => by cases h
  | r :: l, pre, m, e, hup, F, hal, seen, h => by
    have hr : r ∈ rs := by rw [← e]; simp
    unfold mergeResults at h
    cases h1 : mergeResult g env (Base.of u) metered m r with
    | none =>
      obtain ⟨s, k1, k2⟩ := mergeResult_none N O F' Z hr F (hal r hr) h1
      obtain ⟨r', hr', k3⟩ := seen s k2
      refine ⟨r', by rw [← e]; simp [hr'], r, hr, ?_, s, k3, k1⟩
      have hn := O.hosts
      rw [← e, List.map_append, List.map_cons, List.nodup_append] at hn
      exact hn.2.2 _ (List.mem_map_of_mem hr') _ (List.mem_cons_self ..)
    | some m1 =>
      rw [h1] at h
      obtain ⟨_, s2, s3, s4, s5, s6⟩ := mergeResult_spec O hr hup h1
      refine mergeResults_none N O F' Z l (pre ++ [r]) m1 (by rw [← e]; simp) s2 ?_ ?_ ?_ h
      · have : mergeResults g env (Base.of u) metered [r] m = some m1 := by unfold mergeResults; rw [h1]; rfl
        exact Fit.mergeResults N [r] F (fun r' hr' => by rw [List.mem_singleton.1 hr']; exact F' r hr) this
      · intro r' hr'
        by_cases c : r'.host = r.host ∨ Flips (view g u.boxes) r r'.host
        · rw [s5 _ c]; exact O.stay r hr r' hr'
        · rw [s6 _ c]; exact hal r' hr'
      · intro s hs
        rcases (s3 s).1 hs with k | k
        · exact ⟨r, by simp, k⟩
        · obtain ⟨r', h1, h2⟩ := seen s k
          exact ⟨r', by simp [h1], h2⟩

theorem mergeRound_none (N : g.NoOrphans) (O : RoundOk g D u rs) (F : Fit g D u.boxes) (F' : ∀ r ∈ rs, Fit g D r.p.boxes) (Z : ∀ r ∈ rs, Sized cores r.p)
    (h : mergeRound g env metered u rs = none) :
    ∃ r ∈ rs, ∃ r' ∈ rs, r.host ≠ r'.host ∧ ∃ s, Flips (view g u.boxes) r s ∧ Flips (view g u.boxes) r' s := by
  unfold mergeRound at h
  split at h
  · rename_i h1
    exact mergeResults_none N O F' Z rs [] { st := { u := u } } rfl (up_start O) F (fun r hr => O.alive r hr) (fun s hs => by cases hs <;> rename_i k <;> cases k) h1
  · cases h

end Fastroll.Abort
