import Verif.Svc.SpecMerge
import Verif.Svc.LemmasMerge

/-! # Lemmas: a whole round -/
namespace Fastroll.Svc
open Fastroll.Pvm

variable {g : Global} {D : Nat → Prop} {u : PState Boxes} {rs : List AccResult} {env : Env} {metered : Nat → Bool}

theorem alone_some {a : Global} {r : AccResult} {s : Nat} {b : Box} (h : boxGet r.p.boxes s = some b) :
    (Alone a r).metas s = b.info.value := by
  unfold Alone view; dsimp only; rw [h]

theorem alone_none {a : Global} {r : AccResult} {s : Nat} (h : boxGet r.p.boxes s = none) :
    (Alone a r).metas s = a.metas s := by
  unfold Alone view; dsimp only; rw [h]

theorem ensure_other {bs : Boxes} {s s' : Nat} (h : s' ≠ s) : boxGet (ensure g bs s) s' = boxGet bs s' := by
  unfold ensure
  cases boxGet bs s with
  | some b => rfl
  | none =>
    cases g.metas s with
    | none => rfl
    | some m => simp only; rw [boxGet_set, if_neg h]

theorem exists_iff {bs : Boxes} (H : ∀ s b, boxGet bs s = some b → BoxGood g D s b) (s : Nat) :
    existsEffective g bs s = ((view g bs).metas s).isSome := by
  unfold existsEffective view
  dsimp only
  cases h : boxGet bs s with
  | none => rfl
  | some b =>
    simp only
    have := (H s b h).info
    cases hv : b.info.value with
    | none => simp [this.2 hv]
    | some v =>
      have : b.info.status ≠ .removed := fun c => by rw [this.1 c] at hv; cases hv
      simp [this]

theorem touches_iff (O : RoundOk g D u rs) {r : AccResult} (hr : r ∈ rs) (s : Nat) :
    Touches g (Base.of u) r s ↔ Flips (view g u.boxes) r s := by
  have hb : baseExists g (Base.of u) s = ((view g u.boxes).metas s).isSome := exists_iff O.base s
  constructor
  · rintro ⟨h0, bx, h1, h2⟩
    rw [ensure_other h0] at h1
    unfold Flips
    rw [alone_some h1]
    have G := O.good r hr s bx h1
    unfold counts at h2
    rw [hb] at h2
    cases hv : bx.info.value with
    | none => rw [G.info.2 hv] at h2; simp at h2; simp [h2]
    | some v =>
      have : bx.info.status ≠ .removed := fun c => by rw [G.info.1 c] at hv; cases hv
      simp [this] at h2; simp [h2.2]
  · intro hf
    have hne : s ≠ r.host := by
      intro c
      apply hf
      rw [c]
      have h1 := O.stay r hr r hr
      have h2 := O.alive r hr
      rw [h1, h2]
    refine ⟨hne, ?_⟩
    rw [ensure_other hne]
    cases h1 : boxGet r.p.boxes s with
    | none => exact absurd (by rw [alone_none h1]) hf
    | some bx =>
      refine ⟨bx, rfl, ?_⟩
      have G := O.good r hr s bx h1
      unfold Flips at hf
      rw [alone_some h1] at hf
      unfold counts
      rw [hb]
      cases hv : bx.info.value with
      | none => rw [hv] at hf; rw [G.info.2 hv]; cases hm : (view g u.boxes).metas s <;> simp_all
      | some v =>
        rw [hv] at hf
        cases hm : (view g u.boxes).metas s with
        | some w => rw [hm] at hf; exact absurd rfl hf
        | none =>
          have hg : g.metas s = none := by
            apply Decidable.byContradiction
            intro hg
            have := O.lost r hr s hg hm
            rw [alone_some h1, hv] at this; cases this
          simp [G.fresh.2 hg]

/-- The metadata of an account after a merge. -/
def metaOf (g : Global) (st : Round) (s : Nat) : Option Meta := (view g st.u.boxes).metas s

/-- No host of the round is marked removed. -/
def Up (g : Global) (rs : List AccResult) (st : Round) : Prop :=
  ∀ r ∈ rs, ∀ e, infoAt g st.u.boxes r.host = some e → e.status ≠ .removed

theorem mergeResult_spec (O : RoundOk g D u rs) {m m' : Merged} {r : AccResult} (hr : r ∈ rs) (hup : Up g rs m.st)
    (h : mergeResult g env (Base.of u) metered m r = some m') :
    (∃ v bs, mergePrivileges (Base.of u) r.host m.st.u r.p = some v ∧ m'.st.u = { v with boxes := bs }) ∧ Up g rs m'.st ∧
    (∀ s, m'.st.Seen s ↔ Flips (view g u.boxes) r s ∨ m.st.Seen s) ∧ (∀ s, Flips (view g u.boxes) r s → ¬ m.st.Seen s) ∧
    (∀ s, s = r.host ∨ Flips (view g u.boxes) r s → metaOf g m'.st s = (Alone (view g u.boxes) r).metas s) ∧
    (∀ s, ¬ (s = r.host ∨ Flips (view g u.boxes) r s) → metaOf g m'.st s = metaOf g m.st s) := by
  unfold mergeResult at h
  cases h1 : mergeOne g (Base.of u) m.st r with
  | none => rw [h1] at h; cases h
  | some st =>
    rw [h1] at h
    simp only at h
    have hm : m'.st.created = st.created ∧ m'.st.removed = st.removed ∧ (∃ bs, m'.st.u = { st.u with boxes := bs }) ∧
        ∀ s, infoAt g m'.st.u.boxes s = infoAt g st.u.boxes s := by
      by_cases c : metered r.host = true
      · rw [if_pos c] at h
        cases h2 : provideAll g env r.provided st.u.boxes with
        | none => rw [h2] at h; cases h
        | some bs =>
          rw [h2] at h
          cases h
          exact ⟨rfl, rfl, ⟨bs, rfl⟩, provideAll_info _ _ _ h2⟩
      · rw [if_neg c] at h; cases h; exact ⟨rfl, rfl, ⟨st.u.boxes, rfl⟩, fun _ => rfl⟩
    obtain ⟨m1, m2, ⟨bs2, m3⟩, m4⟩ := hm
    have hseen : ∀ s, m'.st.Seen s ↔ st.Seen s := fun s => by unfold Round.Seen; rw [m1, m2]
    have hmeta : ∀ s, metaOf g m'.st s = metaOf g st s := fun s => by
      unfold metaOf; rw [view_infoAt, view_infoAt, m4 s]
    rcases mergeOne_spec h1 with ⟨hb, e1, e2, _⟩ | ⟨hb, bx, v, e1, e2, e3, ⟨bs', e4⟩, e5, e6, e7, e8⟩
    · exfalso
      refine hup r hr hb.info ?_ e2
      rw [← infoAt_ensure g m.st.u.boxes r.host]; exact infoAt_some e1
    · have own : boxGet r.p.boxes r.host = some bx := by
        have := O.own r hr
        cases ho : boxGet r.p.boxes r.host with
        | none => rw [ho] at this; cases this
        | some b0 =>
          unfold ensure at e5
          rw [ho] at e5
          exact ho.symm.trans e5
      refine ⟨⟨v, bs2, e3, by rw [m3, e4]⟩, ?_, ?_, ?_, ?_, ?_⟩
      · intro r' hr' e he
        rw [m4, e8] at he
        by_cases c : r'.host = r.host ∨ Touches g (Base.of u) r r'.host
        · rw [if_pos c] at he
          -- the result keeps every host
          have hs := O.stay r hr r' hr'
          intro hrem
          rcases c with c | c
          · rw [c, infoAt_some own] at he
            cases he
            rw [c, alone_some own, (O.good r hr _ _ own).info.1 hrem] at hs
            cases hs
          · obtain ⟨c0, b1, c1, _⟩ := c
            rw [ensure_other c0] at c1
            rw [infoAt_some c1] at he
            cases he
            rw [alone_some c1, (O.good r hr _ _ c1).info.1 hrem] at hs
            cases hs
        · rw [if_neg c] at he
          exact hup r' hr' e he
      · intro s; rw [hseen, e6, touches_iff O hr]
      · intro s hs; exact e7 s ((touches_iff O hr s).2 hs)
      · intro s hs
        rw [hmeta]
        unfold metaOf
        rw [view_infoAt, e8, if_pos (hs.imp id (touches_iff O hr s).2)]
        rcases hs with c | c
        · rw [c, infoAt_some own, alone_some own]; rfl
        · obtain ⟨c0, b1, c1, _⟩ := (touches_iff O hr s).2 c
          rw [ensure_other c0] at c1
          rw [infoAt_some c1, alone_some c1]; rfl
      · intro s hs
        rw [hmeta]
        unfold metaOf
        rw [view_infoAt, e8, if_neg (fun c => hs (c.imp id (touches_iff O hr s).1)), ← view_infoAt]

theorem flips_not_host (O : RoundOk g D u rs) {r r' : AccResult} (hr : r ∈ rs) (hr' : r' ∈ rs) :
    ¬ Flips (view g u.boxes) r r'.host := by
  intro h
  apply h
  rw [O.stay r hr r' hr', O.alive r' hr']

/-- The merge of the results `l`, some of the results `rs` of the round. -/
theorem mergeResults_spec (O : RoundOk g D u rs) : ∀ (l : List AccResult) (m m' : Merged), (∀ r ∈ l, r ∈ rs) →
    (l.map AccResult.host).Nodup → Up g rs m.st → mergeResults g env (Base.of u) metered l m = some m' →
    (∀ r ∈ l, metaOf g m'.st r.host = (Alone (view g u.boxes) r).metas r.host) ∧
    (∀ r ∈ l, ∀ s, Flips (view g u.boxes) r s → ¬ m.st.Seen s ∧ metaOf g m'.st s = (Alone (view g u.boxes) r).metas s) ∧
    (∀ s, (∀ r ∈ l, r.host ≠ s ∧ ¬ Flips (view g u.boxes) r s) → metaOf g m'.st s = metaOf g m.st s) ∧
    (l.Pairwise fun r r' => ∀ s, Flips (view g u.boxes) r s → ¬ Flips (view g u.boxes) r' s) := by
  intro l
  induction l with
  | nil => intro m m' _ _ _ h; cases h; exact ⟨by simp, by simp, fun _ _ => rfl, List.Pairwise.nil⟩
  | cons r l ih =>
    intro m m' hl hn hup h
    unfold mergeResults at h
    cases h1 : mergeResult g env (Base.of u) metered m r with
    | none => rw [h1] at h; cases h
    | some m1 =>
      rw [h1] at h
      simp only at h
      have hr := hl r (List.mem_cons_self ..)
      obtain ⟨_, s2, s3, s4, s5, s6⟩ := mergeResult_spec O hr hup h1
      obtain ⟨i1, i2, i3, i4⟩ := ih m1 m' (fun r' h' => hl r' (List.mem_cons_of_mem _ h')) (List.nodup_cons.1 hn).2 s2 h
      have hhost : ∀ r' ∈ l, r'.host ≠ r.host := fun r' h' c =>
        (List.nodup_cons.1 hn).1 (c ▸ List.mem_map_of_mem h')
      have later : ∀ s, Flips (view g u.boxes) r s → ∀ r' ∈ l, r'.host ≠ s ∧ ¬ Flips (view g u.boxes) r' s := by
        intro s hs r' h'
        refine ⟨fun c => flips_not_host O hr (hl r' (List.mem_cons_of_mem _ h')) (c ▸ hs), fun hf => ?_⟩
        exact (i2 r' h' s hf).1 ((s3 s).2 (.inl hs))
      refine ⟨?_, ?_, ?_, ?_⟩
      · intro r' h'
        rcases List.mem_cons.1 h' with c | c
        · subst c
          rw [i3 r'.host (fun r2 h2 => ⟨hhost r2 h2, flips_not_host O (hl r2 (List.mem_cons_of_mem _ h2)) hr⟩), s5 _ (.inl rfl)]
        · exact i1 r' c
      · intro r' h' s hs
        rcases List.mem_cons.1 h' with c | c
        · subst c
          refine ⟨s4 s hs, ?_⟩
          rw [i3 s (later s hs), s5 s (.inr hs)]
        · exact ⟨fun hse => (i2 r' c s hs).1 ((s3 s).2 (.inr hse)), (i2 r' c s hs).2⟩
      · intro s hs
        have h0 := hs r (List.mem_cons_self ..)
        rw [i3 s (fun r' h' => hs r' (List.mem_cons_of_mem _ h')), s6 s (fun c => c.elim (fun c => h0.1 c.symm) h0.2)]
      · exact List.Pairwise.cons (fun r' h' s hs => (later s hs r' h').2) i4

theorem up_start (O : RoundOk g D u rs) : Up g rs { u := u } := by
  intro r hr e he hrem
  have ha := O.alive r hr
  change infoAt g u.boxes r.host = some e at he
  rw [view_infoAt, he] at ha
  unfold infoAt at he
  cases hb : boxGet u.boxes r.host with
  | some b =>
    rw [hb] at he; cases he
    have := (O.base _ _ hb).info.1 hrem
    simp [this] at ha
  | none =>
    rw [hb] at he
    cases hg : g.metas r.host with
    | none => rw [hg] at he; cases he
    | some m => rw [hg] at he; cases he; cases hrem

end Fastroll.Svc
