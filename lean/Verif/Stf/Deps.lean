import Verif.Stf.Live
/-! What each component of the state after a block is computed from. -/
namespace Fastroll.Stf
open Fastroll.Safrole (VKey)
variable {σ η ρ ω π : Type}

theorem judge_det {E E' : Judge.Env σ} {d j j' : Judge.Disputes} {xt : Judge.Xt σ} (hV : E.V = E'.V) (h : Judge.transition E d xt = .ok j) (h' : Judge.transition E' d xt = .ok j') :
    j = j' := by
  unfold Judge.transition at h h'
  split at h
  · cases h
  split at h'
  · cases h'
  injection h with h
  injection h' with h'
  rw [← h, ← h', hV]

theorem eliminate_det {E E' : Reports.Env σ} {d d' : Judge.Disputes} {p q q' : List (Option Reports.Pending)} {xt : Judge.Xt σ} (hh : E.hash = E'.hash)
    (hV : E.judge.V = E'.judge.V) (h : Reports.eliminate E d p xt = .ok q) (h' : Reports.eliminate E' d' p xt = .ok q') : q = q' := by
  unfold Reports.eliminate at h h'
  split at h
  · cases h
  split at h'
  · cases h'
  injection h with h
  injection h' with h'
  rw [← h, ← h', hV, hh]

theorem clear_det {P : Reports.Par} {E E' : Reports.Env σ} {b b' : Reports.Block σ} {p q q' : List (Option Reports.Pending)} {av av' : List Reports.Report}
    (ha : b.assurances = b'.assurances) (h : Reports.clearAvailable P E b p = .ok (q, av)) (h' : Reports.clearAvailable P E' b' p = .ok (q', av')) :
    av = av' ∧ (b.slot = b'.slot → q = q') := by
  unfold Reports.clearAvailable at h h'
  split at h
  · cases h
  split at h
  · cases h
  rename_i cs hc
  split at h
  · cases h
  rename_i rs hr
  injection h with h
  split at h'
  · cases h'
  split at h'
  · cases h'
  rename_i cs' hc'
  split at h'
  · cases h'
  rename_i rs' hr'
  injection h' with h'
  rw [ha, hc'] at hc
  injection hc with hc
  subst hc
  rw [hr'] at hr
  injection hr with hr
  subst hr
  injection h with h1 h2
  injection h' with h3 h4
  refine ⟨by rw [← h2, ← h4], fun e => by rw [← h1, ← h3, e]⟩

/-- The stages of two accepted blocks. -/
theorem accepted {W : World σ η ρ ω π} {anc : Option (Nat → Nat → Bool)} {s t : State η ρ ω} {b : Blk σ η π} {acc : List Acc.Report} (h : block W anc s b = .ok (t, acc)) :
    ∃ g : Stage σ η ρ ω π, g.Ok W ∧ g.anc = anc ∧ g.before = s ∧ g.blk = b ∧ g.after W = t ∧ g.acc = acc := by
  obtain ⟨s1, j, saf, new, x, hx, e1, e2⟩ := block_ok.1 h
  exact ⟨⟨anc, b, s, s1, j, saf, new, x⟩, hx, rfl, rfl, rfl, e1.symm, e2.symm⟩

variable {W : World σ η ρ ω π} {g g' : Stage σ η ρ ω π}

theorem dep_judged (h : g.Ok W) (h' : g'.Ok W) (e1 : g.blk.disputes = g'.blk.disputes) (e2 : g.before.judged = g'.before.judged) : g.judged = g'.judged := by
  have a := h.pre.judged
  have a' := h'.pre.judged
  rw [e1, e2] at a
  exact judge_det (E := judgeEnv W g.before) (E' := judgeEnv W g'.before) rfl a a'

theorem dep_fresh (e1 : g.before.slot = g'.before.slot) (e2 : g.blk.slot = g'.blk.slot) : fresh W g.before g.blk = fresh W g'.before g'.blk := by
  unfold fresh; rw [e1, e2]

theorem dep_saf (h : g.Ok W) (h' : g'.Ok W) (e1 : g.before.slot = g'.before.slot) (e2 : g.blk.slot = g'.blk.slot) (e3 : g.before.saf = g'.before.saf)
    (e4 : g.before.staging = g'.before.staging) (e5 : g.before.e1 = g'.before.e1) (e6 : g.judged.punish = g'.judged.punish) (e7 : g.blk.tickets = g'.blk.tickets) :
    (g.after W).saf = (g'.after W).saf := by
  have a := h.pre.epoch
  have a' := h'.pre.epoch
  unfold epochSaf at a a'
  rw [dep_fresh e1 e2, e3, e4, e5, e6, e1, e2, a'] at a
  injection a with a
  have t := h.pre.tickets
  have t' := h'.pre.tickets
  rw [← a, e2, e7, t'] at t
  injection t with t
  have m : (g.after W).saf = g.mid.saf := rfl
  have m' : (g'.after W).saf = g'.mid.saf := rfl
  rw [m, m', h.mid, h'.mid]
  show withTickets W g.saf g.new = withTickets W g'.saf g'.new
  rw [t, a]

theorem dep_available (h : g.Ok W) (h' : g'.Ok W) (e1 : g.before.pending = g'.before.pending) (e2 : g.blk.disputes = g'.blk.disputes) (e3 : g.blk.assurances = g'.blk.assurances) :
    g.parts.available = g'.parts.available ∧ (g.blk.slot = g'.blk.slot → g.parts.pend2 = g'.parts.pend2) := by
  have m : g.mid.pending = g.before.pending := by rw [h.mid]; rfl
  have m' : g'.mid.pending = g'.before.pending := by rw [h'.mid]; rfl
  have a := h.post.eliminated
  have a' := h'.post.eliminated
  rw [m, e1, e2] at a
  rw [m'] at a'
  have ep : g.parts.pend1 = g'.parts.pend1 := eliminate_det (E := repEnv W g.anc g.before g.mid) (E' := repEnv W g'.anc g'.before g'.mid) rfl rfl a a'
  have c := h.post.cleared
  have c' := h'.post.cleared
  rw [ep] at c
  exact clear_det (b := repBlk g.blk) (b' := repBlk g'.blk) e3 c c'

theorem dep_scheduled (h : g.Ok W) (h' : g'.Ok W) (e1 : g.parts.available = g'.parts.available) (e2 : g.before.ready = g'.before.ready) (e3 : g.before.done = g'.before.done)
    (e4 : g.blk.slot = g'.blk.slot) : scheduled g.mid g.parts.available = scheduled g'.mid g'.parts.available := by
  unfold scheduled
  have m1 : g.mid.ready = g.before.ready := by rw [h.mid]; rfl
  have m2 : g'.mid.ready = g'.before.ready := by rw [h'.mid]; rfl
  have m3 : g.mid.done = g.before.done := by rw [h.mid]; rfl
  have m4 : g'.mid.done = g'.before.done := by rw [h'.mid]; rfl
  have m5 : g.mid.slot = g.blk.slot := by rw [h.mid]; rfl
  have m6 : g'.mid.slot = g'.blk.slot := by rw [h'.mid]; rfl
  rw [m1, m2, m3, m4, m5, m6, e1, e2, e3, e4]

theorem dep_out (h : g.Ok W) (h' : g'.Ok W) (e1 : scheduled g.mid g.parts.available = scheduled g'.mid g'.parts.available) (e2 : g.before.world = g'.before.world)
    (e3 : g.before.queues = g'.before.queues) (e4 : g.before.staging = g'.before.staging) (e5 : g.blk.slot = g'.blk.slot) (e6 : g.before.e0 = g'.before.e0)
    (e7 : g.blk.vrf = g'.blk.vrf) : g.parts.out = g'.parts.out := by
  have a := h.post.accumulated
  have a' := h'.post.accumulated
  have m1 : g.mid.world = g.before.world := by rw [h.mid]; rfl
  have m2 : g'.mid.world = g'.before.world := by rw [h'.mid]; rfl
  have m3 : g.mid.queues = g.before.queues := by rw [h.mid]; rfl
  have m4 : g'.mid.queues = g'.before.queues := by rw [h'.mid]; rfl
  have m5 : g.mid.slot = g.blk.slot := by rw [h.mid]; rfl
  have m6 : g'.mid.slot = g'.blk.slot := by rw [h'.mid]; rfl
  have m7 : g.mid.staging = g.before.staging := by rw [h.mid]; rfl
  have m8 : g'.mid.staging = g'.before.staging := by rw [h'.mid]; rfl
  have m9 : g.mid.e0 = g.before.e0 := by rw [h.mid]; rfl
  have m10 : g'.mid.e0 = g'.before.e0 := by rw [h'.mid]; rfl
  unfold accIn at a a'
  rw [m1, m3, m5, m7, m9, e1, e2, e3, e4, e5, e6, e7] at a
  rw [m2, m4, m6, m8, m10, a] at a'
  injection a'

theorem dep_accumulated (e1 : scheduled g.mid g.parts.available = scheduled g'.mid g'.parts.available) (e2 : g.parts.out.count = g'.parts.out.count) :
    g.acc = g'.acc := by
  show (scheduled g.mid g.parts.available).1.take g.parts.out.count = (scheduled g'.mid g'.parts.available).1.take g'.parts.out.count
  rw [e1, e2]

theorem after_ready (h : g.Ok W) : (g.after W).ready =
    Acc.queueTransition g.before.ready (scheduled g.mid g.parts.available).2 (Acc.packageHashes g.acc) g.before.slot g.blk.slot := by
  have m1 : g.mid.ready = g.before.ready := by rw [h.mid]; rfl
  have m5 : g.mid.slot = g.blk.slot := by rw [h.mid]; rfl
  rw [← m1, ← m5]; rfl

theorem after_done (h : g.Ok W) : (g.after W).done = Acc.historyAdd g.before.done (Acc.packageHashes g.acc) := by
  have m1 : g.mid.done = g.before.done := by rw [h.mid]; rfl
  rw [← m1]; rfl

theorem after_pools (h : g.Ok W) : (g.after W).pools = Reports.nextPools W.P g.parts.out.queues g.blk.slot g.blk.guarantees g.before.pools 0 := by
  have m1 : g.mid.pools = g.before.pools := by rw [h.mid]; rfl
  have m5 : g.mid.slot = g.blk.slot := by rw [h.mid]; rfl
  rw [← m1, ← m5]; rfl

theorem after_pending (h : g.Ok W) : (g.after W).pending = Reports.place g.blk.slot g.parts.pend2 g.blk.guarantees := by
  have m5 : g.mid.slot = g.blk.slot := by rw [h.mid]; rfl
  rw [← m5]; rfl

theorem after_hist (h : g.Ok W) : (g.after W).hist = Reports.append W.P (Reports.setRoot g.blk.parentRoot g.before.hist) g.blk.header
    (W.num (Merkle.superPeak W.keccak (g.after W).belt)) (g.blk.guarantees.map fun g => (g.report.pkg, g.report.seg)) := by
  have m1 : g.mid.hist = Reports.setRoot g.blk.parentRoot g.before.hist := by rw [h.mid]; rfl
  rw [← m1]; rfl

theorem after_belt (h : g.Ok W) : (g.after W).belt = Merkle.mmrAppend W.keccak g.before.belt (outputRoot W (g.after W).outputs) := by
  have m1 : g.mid.belt = g.before.belt := by rw [h.mid]; rfl
  rw [← m1]; rfl

theorem after_entropy (h : g.Ok W) : (g.after W).e0 = W.C.mix g.before.e0 g.blk.vrf ∧ (g.after W).e1 = (if fresh W g.before g.blk then g.before.e0 else g.before.e1) ∧
    (g.after W).e2 = (if fresh W g.before g.blk then g.before.e1 else g.before.e2) ∧ (g.after W).e3 = (if fresh W g.before g.blk then g.before.e2 else g.before.e3) := by
  have m0 : (g.after W).e0 = W.C.mix g.mid.e0 g.blk.vrf := rfl
  have m1 : (g.after W).e1 = g.mid.e1 := rfl
  have m2 : (g.after W).e2 = g.mid.e2 := rfl
  have m3 : (g.after W).e3 = g.mid.e3 := rfl
  rw [m0, m1, m2, m3, h.mid]
  exact ⟨rfl, rfl, rfl, rfl⟩

theorem after_active (h : g.Ok W) : (g.after W).active = (if fresh W g.before g.blk then g.before.saf.pending else g.before.active) ∧
    (g.after W).past = (if fresh W g.before g.blk then g.before.active else g.before.past) := by
  have m1 : (g.after W).active = g.mid.active := rfl
  have m2 : (g.after W).past = g.mid.past := rfl
  rw [m1, m2, h.mid]
  exact ⟨rfl, rfl⟩

theorem after_staging (h : g.Ok W) : (g.after W).staging = g.parts.out.staged.getD g.before.staging := by
  have m1 : g.mid.staging = g.before.staging := by rw [h.mid]; rfl
  rw [← m1]; rfl

theorem dep_world (h : g.Ok W) (h' : g'.Ok W) (e1 : g.parts.out = g'.parts.out) (e2 : g.before.world = g'.before.world) (e3 : g.blk.slot = g'.blk.slot)
    (e4 : g.blk.preimages = g'.blk.preimages) : (g.after W).world = (g'.after W).world := by
  have a := h.post.preimages
  have a' := h'.post.preimages
  have m5 : g.mid.slot = g.blk.slot := by rw [h.mid]; rfl
  have m6 : g'.mid.slot = g'.blk.slot := by rw [h'.mid]; rfl
  rw [m5, e1, e2, e3, e4] at a
  rw [m6, a] at a'
  injection a' with a'

end Fastroll.Stf
