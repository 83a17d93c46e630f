import Verif.Stf.More
import Verif.Shuffle.Props
/-! The shape of the state, and what can fail. -/
namespace Fastroll.Stf
open Fastroll.Safrole (VKey)
variable {σ η ρ ω π : Type}

theorem Shape.saf {W : World σ η ρ ω π} {s : State η ρ ω} (h : Spec.Shape W s) : Safrole.WF W.S (safSt s) :=
  ⟨h.validators.1, h.validators.2.1, h.validators.2.2.1, h.validators.2.2.2, h.tickets, h.sealers⟩

theorem Shape.rep {W : World σ η ρ ω π} {s : State η ρ ω} (h : Spec.Shape W s) : Reports.Spec.Shape W.P (repSt s) :=
  ⟨h.cores.1, h.own, h.hist, h.cores.2, h.pools⟩

theorem shape_step {W : World σ η ρ ω π} (hW : Spec.Sound W) {g : Stage σ η ρ ω π} (hok : g.Ok W) (h0 : 0 < g.blk.slot) (hs : Spec.Shape W g.before) : Spec.Shape W (g.after W) := by
  have hlt : g.before.slot < g.blk.slot := by
    rcases hok.pre.slot with h | h
    · omega
    · exact h
  have hb := Steps.safrole hok hlt
  have hc : Safrole.chain W.H W.S W.C [⟨g.blk.slot, g.blk.tickets, g.judged.punish, g.blk.vrf, g.parts.out.staged⟩] (safSt g.before) = some (safSt (g.after W)) := by
    unfold Safrole.chain
    rw [hb]; rfl
  have hw := (Safrole.C26_every_slot_sealed W.H W.C hW.epoch _ (Shape.saf hs) (fun b hb v hv => by
    rw [List.mem_singleton.1 hb] at hv
    exact hW.staged _ _ v hok.post.accumulated hv) hc).1
  obtain ⟨cs, hd⟩ := Reports.step_done hok.step
  have hr := hd.shape hW.hist hW.pool (Shape.rep hs)
  have e1 : g.mid.ready = g.before.ready := by rw [hok.mid]; rfl
  have e2 : g.mid.done = g.before.done := by rw [hok.mid]; rfl
  have e3 : g.mid.stats = g.before.stats := by rw [hok.mid]; rfl
  have e4 : (g.after W).active = g.mid.active := rfl
  refine ⟨⟨hw.1, hw.2.1, hw.2.2.1, hw.2.2.2.1⟩, hw.2.2.2.2.1, hw.2.2.2.2.2, ⟨hr.pending, hr.pools⟩, hr.cores, hr.hist, hr.pool, ⟨?_, ?_⟩, ?_⟩
  · have : (g.after W).ready = Acc.queueTransition g.mid.ready (scheduled g.mid g.parts.available).2 (Acc.packageHashes (accumulated g.mid g.parts)) g.before.slot g.mid.slot := rfl
    rw [this, Acc.queueTransition_length, e1]
    exact hs.rings.1
  · have : (g.after W).done = Acc.historyAdd g.mid.done (Acc.packageHashes (accumulated g.mid g.parts)) := rfl
    rw [this, Acc.historyAdd_length, e2]
    exact hs.rings.2
  · have hst := hok.post.stats
    have : (g.after W).stats = g.parts.stats := rfl
    rw [this]
    refine (Stats.transition_curr W.P.V W.P.C _ _ _ (by rw [e3]; exact hs.stats) ?_ hst).1
    show (g.mid.active.map VKey.ed).length = W.P.V
    rw [List.length_map, ← e4, hW.same]
    exact hw.2.1

theorem shape_run {W : World σ η ρ ω π} (hW : Spec.Sound W) {l : List (Stage σ η ρ ω π)} {s s' : State η ρ ω} (h : Linked W s l s') (h0 : ∀ g ∈ l, 0 < g.blk.slot)
    (hs : Spec.Shape W s) : Spec.Shape W s' := by
  induction l generalizing s with
  | nil => unfold Linked at h; rw [← h]; exact hs
  | cons g l ih =>
    obtain ⟨e, hok, hl⟩ := h
    refine ih hl (fun g hg => h0 g (List.mem_cons_of_mem _ hg)) (shape_step hW hok (h0 g (List.mem_cons_self ..)) ?_)
    rw [e]; exact hs

/-! ## Failures -/

theorem pre_err {W : World σ η ρ ω π} {s0 : State η ρ ω} {b : Blk σ η π} {e : Err} (h : pre W s0 b = .error e) :
    (e = .slot ∧ ¬ SlotOk s0 b) ∨ (e = .disputes ∧ ∃ x, Judge.transition (judgeEnv W s0) s0.judged b.disputes = .error x) ∨
    (e = .sealers ∧ fresh W s0 b = true ∧ Safrole.nextSealers W.H W.S W.C s0.saf s0.slot b.slot s0.saf.pending s0.e1 = none) ∨
    (e = .tickets ∧ ∃ x, Safrole.validate W.H W.S (b.slot % W.S.epoch) (if fresh W s0 b then [] else s0.saf.acc) b.tickets = .error x) := by
  unfold pre at h
  simp only [bind, Except.bind] at h
  cases h1 : timeslot s0 b.slot with
  | error e1 =>
    rw [h1] at h
    injection h with h
    left
    refine ⟨?_, fun hs => ?_⟩
    · rw [← h]
      unfold timeslot at h1
      split at h1
      · cases h1
      · split at h1
        · injection h1 with h1; exact h1.symm
        · cases h1
    · rw [timeslot_ok.2 ⟨hs, rfl⟩] at h1
      cases h1
  | ok s1 =>
    obtain ⟨hs, e1⟩ := timeslot_ok.1 h1
    subst e1
    rw [h1] at h
    dsimp only at h
    unfold disputes at h
    cases h2 : Judge.transition (judgeEnv W s0) s0.judged b.disputes with
    | error x =>
      rw [h2] at h
      injection h with h
      exact Or.inr (Or.inl ⟨h.symm, x, rfl⟩)
    | ok j =>
      rw [h2] at h
      dsimp only at h
      have hf : decide (s0.slot / W.S.epoch < b.slot / W.S.epoch) = fresh W s0 b := rfl
      rw [hf] at h
      cases hfr : fresh W s0 b with
      | true =>
        rw [hfr] at h
        simp only [if_true, rotateEntropy, pastSet, activeSet, parentRoot, newEpoch] at h
        cases h3 : Safrole.nextSealers W.H W.S W.C s0.saf s0.slot b.slot s0.saf.pending s0.e1 with
        | none =>
          rw [h3] at h
          injection h with h
          exact Or.inr (Or.inr (Or.inl ⟨h.symm, rfl, rfl⟩))
        | some sl =>
          rw [h3] at h
          dsimp only at h
          unfold tickets at h
          dsimp only at h
          cases h4 : Safrole.validate W.H W.S (b.slot % W.S.epoch) [] b.tickets with
          | error x =>
            rw [h4] at h
            injection h with h
            exact Or.inr (Or.inr (Or.inr ⟨h.symm, x, h4⟩))
          | ok new => rw [h4] at h; cases h
      | false =>
        rw [hfr] at h
        simp only [if_false, rotateEntropy, pastSet, activeSet, parentRoot, Bool.false_eq_true] at h
        unfold tickets at h
        dsimp only at h
        cases h4 : Safrole.validate W.H W.S (b.slot % W.S.epoch) s0.saf.acc b.tickets with
        | error x =>
          rw [h4] at h
          injection h with h
          exact Or.inr (Or.inr (Or.inr ⟨h.symm, x, h4⟩))
        | ok new => rw [h4] at h; cases h

/-- What the parts of the second phase have computed when they are reached. -/
theorem post_err {W : World σ η ρ ω π} {anc : Option (Nat → Nat → Bool)} {s0 s : State η ρ ω} {b : Blk σ η π} {e : Err} (h : post W anc s0 s b = .error e) :
    (∃ x, e = .reports x ∧ reports W anc s0 s b = .error (.reports x)) ∨
    ∃ (p1 p2 : List (Option Reports.Pending)) (av : List Reports.Report) (keys : List Nat),
      Reports.eliminate (repEnv W anc s0 s) s0.judged s.pending b.disputes = .ok p1 ∧ Reports.clearAvailable W.P (repEnv W anc s0 s) (repBlk b) p1 = .ok (p2, av) ∧
      Reports.validateGuarantees (ctx W anc s0 s b p2) b.guarantees = .ok keys ∧
      ((e = .accumulate ∧ W.accumulate (accIn W s b av) = none) ∨
       ∃ o, W.accumulate (accIn W s b av) = some o ∧
        ((e = .count ∧ o.count > (scheduled s av).1.length) ∨
         (e = .statistics ∧ ∀ p1 st w, Stats.transition W.P.V W.P.C (statBlk W s0 s b ⟨p1, p2, av, keys, o, st, w⟩) s.stats = none) ∨
         (e = .preimages ∧ W.preimages s0.world (W.touch o.world (o.stats.map Prod.fst) s.slot) s.slot b.preimages = none))) := by
  unfold post at h
  simp only [bind, Except.bind] at h
  cases h0 : reports W anc s0 s b with
  | error e1 =>
    rw [h0] at h
    injection h with h
    subst h
    left
    unfold reports at h0
    split at h0
    · injection h0 with h0; exact ⟨_, h0.symm, by rw [h0]⟩
    · split at h0
      · injection h0 with h0; exact ⟨_, h0.symm, by rw [h0]⟩
      · split at h0
        · injection h0 with h0; exact ⟨_, h0.symm, by rw [h0]⟩
        · cases h0
  | ok sx =>
    right
    rw [h0] at h
    unfold reports at h0
    cases h1 : Reports.eliminate (repEnv W anc s0 s) s0.judged s.pending b.disputes with
    | error e => rw [h1] at h0; cases h0
    | ok pend1 =>
    rw [h1] at h0; dsimp only at h0
    cases h2 : Reports.clearAvailable W.P (repEnv W anc s0 s) (repBlk b) pend1 with
    | error e => rw [h2] at h0; cases h0
    | ok pa =>
    obtain ⟨pend2, av⟩ := pa
    rw [h2] at h0; dsimp only at h0
    cases h3 : Reports.validateGuarantees (ctx W anc s0 s b pend2) b.guarantees with
    | error e => rw [h3] at h0; cases h0
    | ok keys =>
    rw [h3] at h0; dsimp only at h0
    injection h0 with h0
    subst h0
    refine ⟨pend1, pend2, av, keys, rfl, h2, h3, ?_⟩
    dsimp only at h
    unfold accumulation at h
    dsimp only [mixEntropy] at h
    cases h4 : W.accumulate (accIn W s b av) with
    | none =>
      unfold accIn scheduled at h4; rw [h4] at h
      injection h with h
      exact Or.inl ⟨h.symm, rfl⟩
    | some o =>
    right
    refine ⟨o, rfl, ?_⟩
    have h4' := h4
    unfold accIn scheduled at h4'; rw [h4'] at h; dsimp only at h
    by_cases h5 : o.count > (Acc.collect (av.map sched) s.ready s.done s.slot).1.length
    · rw [if_pos h5] at h
      injection h with h
      exact Or.inl ⟨h.symm, h5⟩
    rw [if_neg h5] at h; dsimp only at h
    right
    unfold statistics at h
    dsimp only [pools, touched] at h
    split at h
    · rename_i e6 h6
      injection h with h
      subst h
      split at h6
      · rename_i h7
        injection h6 with h6
        exact Or.inl ⟨h6.symm, fun _ _ _ => h7⟩
      · cases h6
    rename_i s9 h6
    right
    split at h6
    · cases h6
    rename_i st h7
    injection h6 with h6
    subst h6
    unfold integrate at h
    dsimp only at h
    split at h
    · rename_i e8 h8
      injection h with h
      subst h
      split at h8
      · rename_i h9
        injection h8 with h8
        exact ⟨h8.symm, h9⟩
      · cases h8
    · cases h

theorem reports_err {W : World σ η ρ ω π} {anc : Option (Nat → Nat → Bool)} {s0 s : State η ρ ω} {b : Blk σ η π} {j : Judge.Disputes} {saf : Safrole.Saf Nat ρ}
    {x : Reports.Err} (hj : Judge.transition (judgeEnv W s0) s0.judged b.disputes = .ok j) (hs : s = mid W s0 b j saf)
    (h : reports W anc s0 s b = .error (.reports x)) : Reports.step W.P (repEnv W anc s0 s) (repSt s0) (repBlk b) = .error x := by
  have e1 : s.pending = s0.pending := by rw [hs]; rfl
  have e2 : s.slot = b.slot := by rw [hs]; rfl
  have e3 : s.hist = Reports.setRoot b.parentRoot s0.hist := by rw [hs]; rfl
  unfold Reports.step
  have a1 : Judge.transition (repEnv W anc s0 s).judge (repSt s0).judged (repBlk b).disputes = .ok j := hj
  rw [a1]
  dsimp only
  unfold reports at h
  rw [e1] at h
  cases h1 : Reports.eliminate (repEnv W anc s0 s) s0.judged s0.pending b.disputes with
  | error e =>
    rw [h1] at h
    injection h with h
    injection h with h
    rw [show Reports.eliminate (repEnv W anc s0 s) (repSt s0).judged (repSt s0).pending (repBlk b).disputes = .error e from h1, h]
  | ok pend1 =>
  rw [h1] at h; dsimp only at h
  rw [show Reports.eliminate (repEnv W anc s0 s) (repSt s0).judged (repSt s0).pending (repBlk b).disputes = .ok pend1 from h1]
  dsimp only
  cases h2 : Reports.clearAvailable W.P (repEnv W anc s0 s) (repBlk b) pend1 with
  | error e =>
    rw [h2] at h
    injection h with h
    injection h with h
    rw [h]
  | ok pa =>
  obtain ⟨pend2, av⟩ := pa
  rw [h2] at h; dsimp only at h
  dsimp only
  unfold ctx at h
  rw [e2, e3] at h
  cases h3 : Reports.validateGuarantees ⟨W.P, repEnv W anc s0 s, b.slot, pend2, s0.pending, s0.pools, Reports.setRoot b.parentRoot s0.hist, b.guarantees.map Reports.Guarantee.report⟩ b.guarantees with
  | error e =>
    rw [h3] at h
    injection h with h
    injection h with h
    rw [show Reports.validateGuarantees ⟨W.P, repEnv W anc s0 s, (repBlk b).slot, pend2, (repSt s0).pending, (repSt s0).pools, Reports.setRoot (repBlk b).parentRoot (repSt s0).hist,
      (repBlk b).guarantees.map Reports.Guarantee.report⟩ (repBlk b).guarantees = .error e from h3, h]
  | ok keys => rw [h3] at h; cases h

theorem assigned_len {W : World σ η ρ ω π} (hW : Spec.Sound W) {p : List Nat} {set : List (VKey Nat)} {e : η} {slot : Nat} (hl : set.length = W.S.validators) :
    (assigned W p set e slot).keys.length ≤ (assigned W p set e slot).cores.length := by
  obtain ⟨hC, k, hk, hv⟩ := hW.cores
  obtain ⟨cores, h1, h2, _⟩ := Shuffle.C09_balanced (rotation W) k hC hk hv W.blake (W.octets e) slot
  unfold assigned
  rw [h1]
  show ((Safrole.nullify W.C.zero p set).map VKey.ed).length ≤ cores.length
  rw [List.length_map, h2]
  unfold Safrole.nullify
  rw [List.length_map, hl]
  exact Nat.le_refl _

theorem mid_sets {W : World σ η ρ ω π} {s0 s : State η ρ ω} {b : Blk σ η π} {j : Judge.Disputes} {saf : Safrole.Saf Nat ρ} (hs : Spec.Shape W s0) (e : s = mid W s0 b j saf) :
    s.active.length = W.S.validators ∧ s.past.length = W.S.validators := by
  obtain ⟨h1, h2, h3, _⟩ := hs.validators
  rw [e]
  unfold mid
  dsimp only
  constructor
  · split
    · exact h1
    · exact h2
  · split
    · exact h2
    · exact h3

theorem assignments_len {W : World σ η ρ ω π} (hW : Spec.Sound W) {anc : Option (Nat → Nat → Bool)} {s0 s : State η ρ ω} {b : Blk σ η π} {j : Judge.Disputes} {saf : Safrole.Saf Nat ρ}
    (hs : Spec.Shape W s0) (e : s = mid W s0 b j saf) :
    (repEnv W anc s0 s).current.keys.length ≤ (repEnv W anc s0 s).current.cores.length ∧
    (repEnv W anc s0 s).previous.keys.length ≤ (repEnv W anc s0 s).previous.cores.length := by
  obtain ⟨h1, h2⟩ := mid_sets hs e
  refine ⟨assigned_len hW h1, ?_⟩
  show (previousAssignment W s).keys.length ≤ (previousAssignment W s).cores.length
  unfold previousAssignment
  dsimp only
  split
  · exact assigned_len hW h1
  · exact assigned_len hW h2

/-- The internal errors: those that no block should be able to cause. -/
theorem block_err {W : World σ η ρ ω π} (hW : Spec.Sound W) {anc : Option (Nat → Nat → Bool)} {s : State η ρ ω} {b : Blk σ η π} (hs : Spec.Shape W s)
    (hb : ∀ a ∈ b.assurances, a.bits.length ≤ W.P.C) {e : Err} (h : block W anc s b = .error e) :
    (e = .slot ∧ ¬ SlotOk s b) ∨ (e = .disputes ∧ ∃ x, Judge.transition (judgeEnv W s) s.judged b.disputes = .error x) ∨
    (e = .tickets ∧ ∃ x, Safrole.validate W.H W.S (b.slot % W.S.epoch) (if fresh W s b then [] else s.saf.acc) b.tickets = .error x) ∨
    (∃ x s1, e = .reports x ∧ x ≠ .panic ∧ x ≠ .missing ∧ (∃ j saf, Judge.transition (judgeEnv W s) s.judged b.disputes = .ok j ∧ s1 = mid W s b j saf) ∧
      reports W anc s s1 b = .error (.reports x)) ∨
    (e = .accumulate ∧ ∃ i, W.accumulate i = none) ∨ (e = .statistics ∧ W.P.V ≤ b.author) ∨ (e = .preimages ∧ ∃ w t, W.preimages s.world w t b.preimages = none) := by
  unfold block at h
  simp only [bind, Except.bind] at h
  cases h1 : pre W s b with
  | error e1 =>
    rw [h1] at h
    injection h with h
    subst h
    rcases pre_err h1 with h2 | h2 | ⟨_, hf, h2⟩ | h2
    · exact Or.inl h2
    · exact Or.inr (Or.inl h2)
    · obtain ⟨sl, hsl⟩ := Safrole.nextSealers_some W.H W.C hW.epoch hW.validators s.saf s.slot b.slot s.e1 hs.validators.1
      rw [hsl] at h2; cases h2
    · exact Or.inr (Or.inr (Or.inl h2))
  | ok s1 =>
  rw [h1] at h
  dsimp only at h
  obtain ⟨j, saf, new, hp, em⟩ := pre_ok.1 h1
  cases h2 : post W anc s s1 b with
  | ok x => rw [h2] at h; cases h
  | error e2 =>
  rw [h2] at h
  injection h with h
  subst h
  have hl := assignments_len hW (anc := anc) hs em
  right; right; right
  rcases post_err h2 with ⟨x, ex, hx⟩ | ⟨p1, p2, av, keys, q1, q2, q3, h3⟩
  · left
    have hst := reports_err hp.judged em hx
    have := Reports.C28_no_panic (P := W.P) (E := repEnv W anc s s1) (s := repSt s) (b := repBlk b) hs.cores.1 hb hl.1 hl.2
    rw [hst] at this
    exact ⟨x, s1, ex, fun c => this.1 (by rw [c]), fun c => this.2 (by rw [c]), ⟨j, _, hp.judged, em⟩, hx⟩
  · right
    rcases h3 with ⟨ea, h4⟩ | ⟨o, h4, h5⟩
    · exact Or.inl ⟨ea, _, h4⟩
    · rcases h5 with ⟨_, h6⟩ | ⟨ea, h6⟩ | ⟨ea, h6⟩
      · exact absurd (hW.count _ _ h4) (Nat.not_le.2 h6)
      · right; left
        refine ⟨ea, ?_⟩
        have e2 : s1.slot = b.slot := by rw [em]; rfl
        have e3 : s1.hist = Reports.setRoot b.parentRoot s.hist := by rw [em]; rfl
        have e1 : s1.pending = s.pending := by rw [em]; rfl
        have e5 : s1.stats = s.stats := by rw [em]; rfl
        have hst : ∃ s2, Reports.step W.P (repEnv W anc s s1) (repSt s) (repBlk b) = .ok (s2, av, keys) := by
          unfold Reports.step
          rw [show Judge.transition (repEnv W anc s s1).judge (repSt s).judged (repBlk b).disputes = .ok j from hp.judged]
          dsimp only
          rw [e1] at q1
          rw [show Reports.eliminate (repEnv W anc s s1) (repSt s).judged (repSt s).pending (repBlk b).disputes = .ok p1 from q1]
          dsimp only
          rw [q2]
          dsimp only
          unfold ctx at q3
          rw [e2, e3] at q3
          rw [show Reports.validateGuarantees ⟨W.P, repEnv W anc s s1, (repBlk b).slot, p2, (repSt s).pending, (repSt s).pools, Reports.setRoot (repBlk b).parentRoot (repSt s).hist,
            (repBlk b).guarantees.map Reports.Guarantee.report⟩ (repBlk b).guarantees = .ok keys from q3]
          exact ⟨_, rfl⟩
        obtain ⟨s2, hst⟩ := hst
        obtain ⟨cs, hd⟩ := Reports.step_done hst
        have hn := h6 [] s.stats s.world
        rw [e5] at hn
        rcases (Stats.C53_total W.P.V W.P.C _ _ hs.stats).1 hn with h7 | ⟨r, hr, h7⟩ | ⟨r, hr, h7⟩ | ⟨a, ha, h7⟩
        · exact h7
        · exfalso
          obtain ⟨g, hg, eg⟩ := List.mem_map.1 hr
          have hf := hd.free hg
          have hlt := (List.getElem?_eq_some_iff.1 hf).1
          rw [Reports.ddagger_length] at hlt
          rw [← eg, hW.full, ← hs.cores.1] at h7
          exact absurd hlt (Nat.not_lt.2 h7)
        · exfalso
          obtain ⟨g, hg, eg⟩ := List.mem_map.1 hr
          obtain ⟨c, p, ha, ep, hc, _⟩ := (Reports.C28_released hst g).1 hg
          have := hs.own c p ha
          rw [← eg, hW.full, ← ep, this] at h7
          omega
        · exfalso
          obtain ⟨a', ha', ea'⟩ := List.mem_map.1 ha
          have := hb a' ha'
          rw [← ea'] at h7
          exact absurd this (Nat.not_le.2 h7)
      · exact Or.inr (Or.inr ⟨ea, _, _, h6⟩)

/-! ## Blocks without extrinsics -/

theorem reached_none {q : Nat} (hq : 0 < q) : ∀ (n i : Nat), Reports.reached q (List.replicate n 0) i = [] := by
  intro n
  induction n with
  | zero => intro i; rfl
  | succ n ih =>
    intro i
    rw [List.replicate_succ]
    unfold Reports.reached
    rw [if_neg (by omega)]
    exact ih _

theorem reports_empty {W : World σ η ρ ω π} {anc : Option (Nat → Nat → Bool)} {s0 s : State η ρ ω} {b : Blk σ η π} (h : Spec.Empty b) {e : Err} : reports W anc s0 s b ≠ .error e := by
  unfold reports
  have e1 : Reports.eliminate (repEnv W anc s0 s) s0.judged s.pending b.disputes = .ok s.pending := by
    rw [h.disputes]; rfl
  rw [e1]
  dsimp only
  have e2 : Reports.availableCores W.P (repBlk b).assurances = some [] := by
    show Reports.availableCores W.P b.assurances = some []
    rw [h.assurances]
    unfold Reports.availableCores Reports.counts
    show some (Reports.reached (Judge.super W.P.V) (List.replicate W.P.C 0) 0) = some []
    rw [reached_none (q := Judge.super W.P.V) (Nat.succ_pos _)]
  have e3 : ∃ q, Reports.clearAvailable W.P (repEnv W anc s0 s) (repBlk b) s.pending = .ok (q, []) := by
    unfold Reports.clearAvailable
    have : Reports.validateAssurances (repEnv W anc s0 s) (repBlk b).parent s.pending (repBlk b).assurances = .ok () := by
      show Reports.validateAssurances _ _ _ b.assurances = _
      rw [h.assurances]; rfl
    rw [this, e2]
    exact ⟨_, rfl⟩
  obtain ⟨q, e3⟩ := e3
  rw [e3]
  dsimp only
  have e4 : Reports.validateGuarantees (ctx W anc s0 s b q) b.guarantees = .ok [] := by
    rw [h.guarantees]; rfl
  rw [e4]
  intro c
  cases c

end Fastroll.Stf
