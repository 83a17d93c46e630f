import Verif.Stf.Model
import Verif.Reports.Steps
/-! Lemmas on the transition of a block. -/
namespace Fastroll.Stf
open Fastroll.Safrole (VKey)
open Fastroll.Merkle (Bytes)
variable {σ η ρ ω π : Type}

/-- Whether a block starts an epoch. -/
def fresh (W : World σ η ρ ω π) (s0 : State η ρ ω) (b : Blk σ η π) : Bool := decide (s0.slot / W.S.epoch < b.slot / W.S.epoch)

/-- The Safrole state before the tickets. -/
def epochSaf (W : World σ η ρ ω π) (s0 : State η ρ ω) (b : Blk σ η π) (j : Judge.Disputes) : Option (Safrole.Saf Nat ρ) :=
  if fresh W s0 b then
    (Safrole.nextSealers W.H W.S W.C s0.saf s0.slot b.slot s0.saf.pending s0.e1).map fun sealers =>
      { pending := Safrole.nullify W.C.zero j.punish s0.staging, root := W.C.ringRoot (Safrole.nullify W.C.zero j.punish s0.staging), sealers := sealers, acc := [] }
  else some s0.saf

/-- The state when the header is committed to. -/
def mid (W : World σ η ρ ω π) (s0 : State η ρ ω) (b : Blk σ η π) (j : Judge.Disputes) (saf : Safrole.Saf Nat ρ) : State η ρ ω :=
  { s0 with slot := b.slot, judged := j, saf := saf, hist := Reports.setRoot b.parentRoot s0.hist,
            e1 := if fresh W s0 b then s0.e0 else s0.e1, e2 := if fresh W s0 b then s0.e1 else s0.e2, e3 := if fresh W s0 b then s0.e2 else s0.e3,
            past := if fresh W s0 b then s0.active else s0.past, active := if fresh W s0 b then s0.saf.pending else s0.active }

/-- A block's slot is acceptable on a state. -/
def SlotOk (s0 : State η ρ ω) (b : Blk σ η π) : Prop := (s0.slot = 0 ∧ b.slot = 0) ∨ s0.slot < b.slot

/-- What the first phase computes. -/
structure PreOk (W : World σ η ρ ω π) (s0 : State η ρ ω) (b : Blk σ η π) (j : Judge.Disputes) (saf : Safrole.Saf Nat ρ) (new : List Safrole.Ticket) : Prop where
  slot : SlotOk s0 b
  judged : Judge.transition (judgeEnv W s0) s0.judged b.disputes = .ok j
  epoch : epochSaf W s0 b j = some saf
  tickets : Safrole.validate W.H W.S (b.slot % W.S.epoch) saf.acc b.tickets = .ok new

def withTickets (W : World σ η ρ ω π) (saf : Safrole.Saf Nat ρ) (new : List Safrole.Ticket) : Safrole.Saf Nat ρ :=
  { saf with acc := Safrole.addMany W.H W.S.epoch saf.acc new }

theorem timeslot_ok {s0 s : State η ρ ω} {b : Blk σ η π} : timeslot s0 b.slot = .ok s ↔ SlotOk s0 b ∧ s = { s0 with slot := b.slot } := by
  unfold timeslot SlotOk
  by_cases h : s0.slot = 0 ∧ b.slot = 0
  · rw [if_pos h]
    constructor
    · intro e; injection e with e; exact ⟨Or.inl h, e.symm⟩
    · rintro ⟨_, e⟩; rw [e]
  · rw [if_neg h]
    by_cases h2 : b.slot ≤ s0.slot
    · rw [if_pos h2]
      constructor
      · intro e; cases e
      · rintro ⟨h3 | h3, _⟩
        · exact absurd h3 h
        · omega
    · rw [if_neg h2]
      constructor
      · intro e; injection e with e; exact ⟨Or.inr (by omega), e.symm⟩
      · rintro ⟨_, e⟩; rw [e]

theorem pre_ok {W : World σ η ρ ω π} {s0 s : State η ρ ω} {b : Blk σ η π} :
    pre W s0 b = .ok s ↔ ∃ j saf new, PreOk W s0 b j saf new ∧ s = mid W s0 b j (withTickets W saf new) := by
  unfold pre
  simp only [bind, Except.bind]
  cases h1 : timeslot s0 b.slot with
  | error e =>
    constructor
    · intro h; cases h
    · rintro ⟨j, saf, new, h, _⟩
      rw [timeslot_ok.2 ⟨h.slot, rfl⟩] at h1
      cases h1
  | ok s1 =>
    obtain ⟨hs, e⟩ := timeslot_ok.1 h1
    subst e
    dsimp only
    unfold disputes
    cases h2 : Judge.transition (judgeEnv W s0) s0.judged b.disputes with
    | error e =>
      constructor
      · intro h; cases h
      · rintro ⟨j, saf, new, h, _⟩
        rw [h.judged] at h2; cases h2
    | ok j =>
      dsimp only
      have hf : decide (s0.slot / W.S.epoch < b.slot / W.S.epoch) = fresh W s0 b := rfl
      rw [hf]
      cases hfr : fresh W s0 b with
      | true =>
        simp only [if_true, rotateEntropy, pastSet, activeSet, parentRoot, newEpoch]
        cases h3 : Safrole.nextSealers W.H W.S W.C s0.saf s0.slot b.slot s0.saf.pending s0.e1 with
        | none =>
          constructor
          · intro h; cases h
          · rintro ⟨j', saf, new, h, _⟩
            have := h.epoch
            unfold epochSaf at this
            rw [hfr, h3] at this
            cases this
        | some sl =>
          dsimp only
          unfold tickets
          dsimp only
          have he : epochSaf W s0 b j = some { pending := Safrole.nullify W.C.zero j.punish s0.staging, root := W.C.ringRoot (Safrole.nullify W.C.zero j.punish s0.staging), sealers := sl, acc := [] } := by
            unfold epochSaf
            rw [hfr, h3]; rfl
          cases h4 : Safrole.validate W.H W.S (b.slot % W.S.epoch) [] b.tickets with
          | error e =>
            constructor
            · intro h; cases h
            · rintro ⟨j', saf, new, h, _⟩
              have e1 := h.judged
              rw [h2] at e1
              injection e1 with e1; subst e1
              have e2 := h.epoch
              rw [he] at e2
              injection e2 with e2; subst e2
              have e3 := h.tickets
              rw [h4] at e3; cases e3
          | ok new =>
            constructor
            · intro h; injection h with h
              refine ⟨j, _, new, ⟨hs, h2, he, h4⟩, ?_⟩
              rw [← h]
              unfold mid withTickets
              simp only [hfr, if_true]
            · rintro ⟨j', saf, new', h, e⟩
              have e1 := h.judged
              rw [h2] at e1
              injection e1 with e1; subst e1
              have e2 := h.epoch
              rw [he] at e2
              injection e2 with e2; subst e2
              have e3 := h.tickets
              rw [h4] at e3
              injection e3 with e3; subst e3
              rw [e]
              unfold mid withTickets
              simp only [hfr, if_true]
      | false =>
        simp only [if_false, rotateEntropy, pastSet, activeSet, parentRoot, Bool.false_eq_true]
        unfold tickets
        dsimp only
        have he : epochSaf W s0 b j = some s0.saf := by
          unfold epochSaf
          rw [hfr]; rfl
        cases h4 : Safrole.validate W.H W.S (b.slot % W.S.epoch) s0.saf.acc b.tickets with
        | error e =>
          constructor
          · intro h; cases h
          · rintro ⟨j', saf, new, h, _⟩
            have e1 := h.judged
            rw [h2] at e1
            injection e1 with e1; subst e1
            have e2 := h.epoch
            rw [he] at e2
            injection e2 with e2; subst e2
            have e3 := h.tickets
            rw [h4] at e3; cases e3
        | ok new =>
          constructor
          · intro h; injection h with h
            refine ⟨j, _, new, ⟨hs, h2, he, h4⟩, ?_⟩
            rw [← h]
            unfold mid withTickets
            simp only [hfr, if_false, Bool.false_eq_true]
          · rintro ⟨j', saf, new', h, e⟩
            have e1 := h.judged
            rw [h2] at e1
            injection e1 with e1; subst e1
            have e2 := h.epoch
            rw [he] at e2
            injection e2 with e2; subst e2
            have e3 := h.tickets
            rw [h4] at e3
            injection e3 with e3; subst e3
            rw [e]
            unfold mid withTickets
            simp only [hfr, if_false, Bool.false_eq_true]

/-! ## The second phase -/

/-- What the second phase computes from the state `s` at the header's commitment. -/
structure Parts (ω : Type) where
  pend1 : List (Option Reports.Pending)
  pend2 : List (Option Reports.Pending)
  available : List Reports.Report
  keys : List Nat
  out : AccOut ω
  stats : Stats.Stats
  world : ω

/-- The reports scheduled for accumulation and the new waiting ones. -/
def scheduled (s : State η ρ ω) (available : List Reports.Report) : List Acc.Report × List Acc.Entry :=
  Acc.collect (available.map sched) s.ready s.done s.slot

/-- Input of accumulation. -/
def accIn (W : World σ η ρ ω π) (s : State η ρ ω) (b : Blk σ η π) (available : List Reports.Report) : AccIn η ω :=
  { world := s.world, queues := s.queues, staging := s.staging, slot := s.slot, entropy := W.C.mix s.e0 b.vrf, reports := (scheduled s available).1 }

/-- Input of the statistics. -/
def statBlk (W : World σ η ρ ω π) (s0 s : State η ρ ω) (b : Blk σ η π) (x : Parts ω) : Stats.Block Nat :=
  { newEpoch := decide (s0.slot / W.S.epoch < s.slot / W.S.epoch), author := b.author, tickets := b.tickets.length, preimages := W.sizes b.preimages,
    assurances := b.assurances.map fun a => { validator := a.voter, bits := a.bits },
    guarantees := b.guarantees.map fun g => W.full g.report, available := x.available.map W.full, reporters := x.keys,
    active := s.active.map VKey.ed, accStats := x.out.stats }

structure PostOk (W : World σ η ρ ω π) (anc : Option (Nat → Nat → Bool)) (s0 s : State η ρ ω) (b : Blk σ η π) (x : Parts ω) : Prop where
  eliminated : Reports.eliminate (repEnv W anc s0 s) s0.judged s.pending b.disputes = .ok x.pend1
  cleared : Reports.clearAvailable W.P (repEnv W anc s0 s) (repBlk b) x.pend1 = .ok (x.pend2, x.available)
  guaranteed : Reports.validateGuarantees (ctx W anc s0 s b x.pend2) b.guarantees = .ok x.keys
  accumulated : W.accumulate (accIn W s b x.available) = some x.out
  count : x.out.count ≤ (scheduled s x.available).1.length
  stats : Stats.transition W.P.V W.P.C (statBlk W s0 s b x) s.stats = some x.stats
  preimages : W.preimages s0.world (W.touch x.out.world (x.out.stats.map Prod.fst) s.slot) s.slot b.preimages = some x.world

/-- The reports accumulated. -/
def accumulated (s : State η ρ ω) (x : Parts ω) : List Acc.Report := (scheduled s x.available).1.take x.out.count

def afterPost (W : World σ η ρ ω π) (s0 s : State η ρ ω) (b : Blk σ η π) (x : Parts ω) : State η ρ ω :=
  { s with pending := Reports.place s.slot x.pend2 b.guarantees, e0 := W.C.mix s.e0 b.vrf, world := x.world, queues := x.out.queues,
           staging := x.out.staged.getD s.staging, done := Acc.historyAdd s.done (Acc.packageHashes (accumulated s x)),
           ready := Acc.queueTransition s.ready (scheduled s x.available).2 (Acc.packageHashes (accumulated s x)) s0.slot s.slot,
           outputs := x.out.outputs, pools := Reports.nextPools W.P x.out.queues s.slot b.guarantees s.pools 0, stats := x.stats }

theorem post_ok {W : World σ η ρ ω π} {anc : Option (Nat → Nat → Bool)} {s0 s s' : State η ρ ω} {b : Blk σ η π} {acc : List Acc.Report} :
    post W anc s0 s b = .ok (s', acc) ↔ ∃ x, PostOk W anc s0 s b x ∧ s' = afterPost W s0 s b x ∧ acc = accumulated s x := by
  constructor
  · intro h
    unfold post at h
    simp only [bind, Except.bind] at h
    unfold reports at h
    cases h1 : Reports.eliminate (repEnv W anc s0 s) s0.judged s.pending b.disputes with
    | error e => rw [h1] at h; cases h
    | ok pend1 =>
    rw [h1] at h; dsimp only at h
    cases h2 : Reports.clearAvailable W.P (repEnv W anc s0 s) (repBlk b) pend1 with
    | error e => rw [h2] at h; cases h
    | ok pa =>
    obtain ⟨pend2, av⟩ := pa
    rw [h2] at h; dsimp only at h
    cases h3 : Reports.validateGuarantees (ctx W anc s0 s b pend2) b.guarantees with
    | error e => rw [h3] at h; cases h
    | ok keys =>
    rw [h3] at h; dsimp only at h
    unfold accumulation at h
    dsimp only [mixEntropy] at h
    cases h4 : W.accumulate (accIn W s b av) with
    | none => unfold accIn scheduled at h4; rw [h4] at h; cases h
    | some o =>
    have h4' := h4
    unfold accIn scheduled at h4'; rw [h4'] at h; dsimp only at h
    by_cases h5 : o.count > (Acc.collect (av.map sched) s.ready s.done s.slot).1.length
    · rw [if_pos h5] at h; cases h
    rw [if_neg h5] at h; dsimp only at h
    unfold statistics at h
    dsimp only [pools, touched] at h
    split at h
    · cases h
    rename_i s9 h6
    split at h6
    · cases h6
    rename_i st h7
    injection h6 with h6
    subst h6
    unfold integrate at h
    dsimp only at h
    split at h
    · cases h
    rename_i s10 h8
    split at h8
    · cases h8
    rename_i w h9
    injection h8 with h8
    subst h8
    simp only [pure, Except.pure] at h
    injection h with h
    injection h with ha hb
    refine ⟨⟨pend1, pend2, av, keys, o, st, w⟩, ⟨h1, h2, h3, h4, Nat.le_of_not_gt h5, h7, h9⟩, ha.symm, hb.symm⟩
  · rintro ⟨x, h, e1, e2⟩
    have hstat := h.stats
    unfold statBlk at hstat
    have hacc := h.accumulated
    unfold accIn scheduled at hacc
    have hcnt := Nat.not_lt.2 h.count
    unfold scheduled at hcnt
    unfold post
    simp only [bind, Except.bind, pure, Except.pure, reports, h.eliminated, h.cleared, h.guaranteed, accumulation, mixEntropy, hacc, hcnt, gt_iff_lt, if_false,
      pools, touched, statistics, integrate]
    split
    · rename_i e3
      split at e3
      · rename_i e4
        exact absurd (e4.symm.trans hstat) (by simp)
      · cases e3
    · rename_i e3
      split at e3
      · cases e3
      · rename_i st e4
        injection e3 with e3
        subst e3
        have e5 := e4.symm.trans hstat
        injection e5 with e5
        subst e5
        dsimp only
        rw [h.preimages, e1, e2]
        rfl

/-! ## The whole block -/

/-- Everything a block computes. -/
structure Steps (W : World σ η ρ ω π) (anc : Option (Nat → Nat → Bool)) (s0 : State η ρ ω) (b : Blk σ η π) (s1 : State η ρ ω) (j : Judge.Disputes)
    (saf : Safrole.Saf Nat ρ) (new : List Safrole.Ticket) (x : Parts ω) : Prop where
  pre : PreOk W s0 b j saf new
  mid : s1 = mid W s0 b j (withTickets W saf new)
  post : PostOk W anc s0 s1 b x

theorem block_ok {W : World σ η ρ ω π} {anc : Option (Nat → Nat → Bool)} {s0 s' : State η ρ ω} {b : Blk σ η π} {acc : List Acc.Report} :
    block W anc s0 b = .ok (s', acc) ↔
      ∃ s1 j saf new x, Steps W anc s0 b s1 j saf new x ∧ s' = fin W (afterPost W s0 s1 b x) b ∧ acc = accumulated s1 x := by
  unfold block
  simp only [bind, Except.bind, pure, Except.pure]
  constructor
  · intro h
    cases h1 : pre W s0 b with
    | error e => rw [h1] at h; cases h
    | ok s1 =>
    rw [h1] at h; dsimp only at h
    obtain ⟨j, saf, new, hp, e⟩ := pre_ok.1 h1
    cases h2 : post W anc s0 s1 b with
    | error e => rw [h2] at h; cases h
    | ok sa =>
    obtain ⟨s2, acc2⟩ := sa
    rw [h2] at h; dsimp only at h
    obtain ⟨x, hx, e1, e2⟩ := post_ok.1 h2
    injection h with h
    injection h with ha hb
    subst e1; subst e2
    exact ⟨s1, j, saf, new, x, ⟨hp, e, hx⟩, ha.symm, hb.symm⟩
  · rintro ⟨s1, j, saf, new, x, h, e1, e2⟩
    rw [pre_ok.2 ⟨j, saf, new, h.pre, h.mid⟩]
    dsimp only
    rw [post_ok.2 ⟨x, h.post, rfl, rfl⟩]
    rw [e1, e2]

end Fastroll.Stf
