import Verif.Stf.Lemmas
/-! Each accepted block is an accepted block of the models of the areas. -/
namespace Fastroll.Stf
open Fastroll.Safrole (VKey)
open Fastroll.Merkle (Bytes)
variable {σ η ρ ω π : Type}

/-! ## What the reports part does not read -/

def setQ (E : Reports.Env σ) (q : List (List Nat)) (m : Nat) : Reports.Env σ := { E with queues := q, mmr := m }

theorem setQ_assurances {E : Reports.Env σ} {q : List (List Nat)} {m parent : Nat} {pend : List (Option Reports.Pending)} {xt : List (Reports.Assurance σ)} :
    Reports.checkAssurances (setQ E q m) parent pend xt = Reports.checkAssurances E parent pend xt := by
  induction xt with
  | nil => rfl
  | cons a as ih =>
    unfold Reports.checkAssurances
    rw [ih]; rfl

theorem setQ_validateAssurances {E : Reports.Env σ} {q : List (List Nat)} {m parent : Nat} {pend : List (Option Reports.Pending)} {xt : List (Reports.Assurance σ)} :
    Reports.validateAssurances (setQ E q m) parent pend xt = Reports.validateAssurances E parent pend xt := by
  unfold Reports.validateAssurances
  rw [setQ_assurances]

theorem setQ_creds {P : Reports.Par} {E : Reports.Env σ} {q : List (List Nat)} {m now : Nat} {pend pend0 : List (Option Reports.Pending)} {pools : List (List Nat)}
    {hist : List Reports.Hist} {rs : List Reports.Report} {r : Reports.Report} {slot : Nat} {cs : List (Reports.Cred σ)} :
    Reports.checkCreds ⟨P, setQ E q m, now, pend, pend0, pools, hist, rs⟩ r slot cs = Reports.checkCreds ⟨P, E, now, pend, pend0, pools, hist, rs⟩ r slot cs := by
  induction cs with
  | nil => rfl
  | cons a as ih =>
    unfold Reports.checkCreds
    rw [ih]; rfl

theorem setQ_guarantees {P : Reports.Par} {E : Reports.Env σ} {q : List (List Nat)} {m now : Nat} {pend pend0 : List (Option Reports.Pending)} {pools : List (List Nat)}
    {hist : List Reports.Hist} {rs : List Reports.Report} {gs : List (Reports.Guarantee σ)} :
    Reports.checkGuarantees ⟨P, setQ E q m, now, pend, pend0, pools, hist, rs⟩ gs = Reports.checkGuarantees ⟨P, E, now, pend, pend0, pools, hist, rs⟩ gs := by
  induction gs with
  | nil => rfl
  | cons a as ih =>
    unfold Reports.checkGuarantees
    rw [ih]
    have e1 : Reports.checkReport ⟨P, setQ E q m, now, pend, pend0, pools, hist, rs⟩ a.report = Reports.checkReport ⟨P, E, now, pend, pend0, pools, hist, rs⟩ a.report := rfl
    have e2 : Reports.validateCreds ⟨P, setQ E q m, now, pend, pend0, pools, hist, rs⟩ a = Reports.validateCreds ⟨P, E, now, pend, pend0, pools, hist, rs⟩ a := by
      unfold Reports.validateCreds
      rw [setQ_creds]
    rw [e1, e2]

theorem setQ_validate {P : Reports.Par} {E : Reports.Env σ} {q : List (List Nat)} {m now : Nat} {pend pend0 : List (Option Reports.Pending)} {pools : List (List Nat)}
    {hist : List Reports.Hist} {rs : List Reports.Report} {gs : List (Reports.Guarantee σ)} :
    Reports.validateGuarantees ⟨P, setQ E q m, now, pend, pend0, pools, hist, rs⟩ gs = Reports.validateGuarantees ⟨P, E, now, pend, pend0, pools, hist, rs⟩ gs := by
  unfold Reports.validateGuarantees
  rw [setQ_guarantees]

theorem setQ_clear {P : Reports.Par} {E : Reports.Env σ} {q : List (List Nat)} {m : Nat} {b : Reports.Block σ} {pend : List (Option Reports.Pending)} :
    Reports.clearAvailable P (setQ E q m) b pend = Reports.clearAvailable P E b pend := by
  unfold Reports.clearAvailable
  rw [setQ_validateAssurances]

theorem setQ_eliminate {E : Reports.Env σ} {q : List (List Nat)} {m : Nat} {d : Judge.Disputes} {xt : Judge.Xt σ} {pend : List (Option Reports.Pending)} :
    Reports.eliminate (setQ E q m) d pend xt = Reports.eliminate E d pend xt := rfl

/-! ## The parts of the state -/

def repSt (s : State η ρ ω) : Reports.St := { pending := s.pending, hist := s.hist, pools := s.pools, judged := s.judged }
def accSt (s : State η ρ ω) : Acc.St := { slot := s.slot, queue := s.ready, history := s.done }
def safSt (s : State η ρ ω) : Safrole.State Nat ρ η :=
  { slot := s.slot, e0 := s.e0, e1 := s.e1, e2 := s.e2, e3 := s.e3, saf := s.saf, staging := s.staging, active := s.active, past := s.past }

/-- What the reports part of a block reads, with what it leaves behind. -/
def fullEnv (W : World σ η ρ ω π) (anc : Option (Nat → Nat → Bool)) (s0 s1 s' : State η ρ ω) : Reports.Env σ :=
  setQ (repEnv W anc s0 s1) s'.queues (W.num (Merkle.superPeak W.keccak s'.belt))

variable {W : World σ η ρ ω π} {anc : Option (Nat → Nat → Bool)} {s0 s1 : State η ρ ω} {b : Blk σ η π} {j : Judge.Disputes} {saf : Safrole.Saf Nat ρ}
  {new : List Safrole.Ticket} {x : Parts ω}

theorem Steps.reports (h : Steps W anc s0 b s1 j saf new x) :
    Reports.step W.P (fullEnv W anc s0 s1 (fin W (afterPost W s0 s1 b x) b)) (repSt s0) (repBlk b) =
      .ok (repSt (fin W (afterPost W s0 s1 b x) b), x.available, x.keys) := by
  have hp := h.post
  have ej := h.pre.judged
  have em := h.mid
  have e1 : s1.pending = s0.pending := by rw [em]; rfl
  have e2 : s1.slot = b.slot := by rw [em]; rfl
  have e3 : s1.hist = Reports.setRoot b.parentRoot s0.hist := by rw [em]; rfl
  have e4 : s1.pools = s0.pools := by rw [em]; rfl
  have e5 : s1.judged = j := by rw [em]; rfl
  unfold Reports.step
  have a1 : Judge.transition (fullEnv W anc s0 s1 (fin W (afterPost W s0 s1 b x) b)).judge (repSt s0).judged (repBlk b).disputes = .ok j := ej
  rw [a1]
  dsimp only
  have a2 : Reports.eliminate (fullEnv W anc s0 s1 (fin W (afterPost W s0 s1 b x) b)) (repSt s0).judged (repSt s0).pending (repBlk b).disputes = .ok x.pend1 := by
    rw [← hp.eliminated, e1]
    exact setQ_eliminate
  rw [a2]
  dsimp only
  have a3 : Reports.clearAvailable W.P (fullEnv W anc s0 s1 (fin W (afterPost W s0 s1 b x) b)) (repBlk b) x.pend1 = .ok (x.pend2, x.available) := by
    rw [← hp.cleared]
    exact setQ_clear
  rw [a3]
  dsimp only
  have a4 := hp.guaranteed
  unfold ctx at a4
  rw [← setQ_validate (q := (fin W (afterPost W s0 s1 b x) b).queues) (m := W.num (Merkle.superPeak W.keccak (fin W (afterPost W s0 s1 b x) b).belt)), e2, e3] at a4
  have a5 : Reports.validateGuarantees ⟨W.P, fullEnv W anc s0 s1 (fin W (afterPost W s0 s1 b x) b), (repBlk b).slot, x.pend2, (repSt s0).pending, (repSt s0).pools,
      Reports.setRoot (repBlk b).parentRoot (repSt s0).hist, (repBlk b).guarantees.map Reports.Guarantee.report⟩ (repBlk b).guarantees = .ok x.keys := a4
  rw [a5]
  dsimp only
  have a6 : repSt (fin W (afterPost W s0 s1 b x) b) =
      { pending := Reports.place (repBlk b).slot x.pend2 (repBlk b).guarantees,
        pools := Reports.nextPools W.P (fullEnv W anc s0 s1 (fin W (afterPost W s0 s1 b x) b)).queues (repBlk b).slot (repBlk b).guarantees (repSt s0).pools 0,
        hist := Reports.append W.P (Reports.setRoot (repBlk b).parentRoot (repSt s0).hist) (repBlk b).header
          (fullEnv W anc s0 s1 (fin W (afterPost W s0 s1 b x) b)).mmr ((repBlk b).guarantees.map fun g => (g.report.pkg, g.report.seg)),
        judged := j } := by
    have q1 : (repSt (fin W (afterPost W s0 s1 b x) b)).pending = Reports.place s1.slot x.pend2 b.guarantees := rfl
    have q2 : (repSt (fin W (afterPost W s0 s1 b x) b)).pools = Reports.nextPools W.P x.out.queues s1.slot b.guarantees s1.pools 0 := rfl
    have q3 : (repSt (fin W (afterPost W s0 s1 b x) b)).judged = s1.judged := rfl
    have q4 : (repSt (fin W (afterPost W s0 s1 b x) b)).hist = Reports.append W.P s1.hist b.header
      (fullEnv W anc s0 s1 (fin W (afterPost W s0 s1 b x) b)).mmr (b.guarantees.map fun g => (g.report.pkg, g.report.seg)) := rfl
    rw [e2] at q1 q2
    rw [e4] at q2
    rw [e5] at q3
    rw [e3] at q4
    generalize hr : repSt (fin W (afterPost W s0 s1 b x) b) = r at q1 q2 q3 q4
    obtain ⟨r1, r2, r3, r4⟩ := r
    dsimp only at q1 q2 q3 q4
    subst q1; subst q2; subst q3; subst q4
    rfl
  rw [a6]

theorem Steps.accumulation (h : Steps W anc s0 b s1 j saf new x) :
    Acc.blockStep (accSt s0) (x.available.map sched) b.slot x.out.count = some (accSt (fin W (afterPost W s0 s1 b x) b), accumulated s1 x) := by
  have em := h.mid
  have e1 : s1.ready = s0.ready := by rw [em]; rfl
  have e2 : s1.slot = b.slot := by rw [em]; rfl
  have e3 : s1.done = s0.done := by rw [em]; rfl
  have ec := h.post.count
  have ha : accSt (fin W (afterPost W s0 s1 b x) b) =
      { slot := s1.slot, history := Acc.historyAdd s1.done (Acc.packageHashes (accumulated s1 x)),
        queue := Acc.queueTransition s1.ready (scheduled s1 x.available).2 (Acc.packageHashes (accumulated s1 x)) s0.slot s1.slot } := rfl
  rw [ha]
  unfold accumulated
  unfold scheduled at *
  rw [e1, e2, e3] at *
  unfold Acc.blockStep
  exact if_neg (Nat.not_lt.2 ec)

theorem Steps.safrole (h : Steps W anc s0 b s1 j saf new x) (hs : s0.slot < b.slot) :
    Safrole.block W.H W.S W.C (safSt s0) { slot := b.slot, tickets := b.tickets, punished := j.punish, vrf := b.vrf, staged := x.out.staged } =
      some (safSt (fin W (afterPost W s0 s1 b x) b)) := by
  have em := h.mid
  have hp := h.pre
  have ht := hp.tickets
  have he := hp.epoch
  unfold epochSaf at he
  unfold Safrole.block Safrole.header
  unfold safSt
  dsimp only
  rw [if_neg (Nat.not_le.2 hs)]
  cases hf : fresh W s0 b with
  | true =>
    have hf' : s0.slot / W.S.epoch < b.slot / W.S.epoch := of_decide_eq_true hf
    rw [hf] at he
    simp only [if_true] at he
    simp only [if_pos hf']
    cases hn : Safrole.nextSealers W.H W.S W.C s0.saf s0.slot b.slot s0.saf.pending s0.e1 with
    | none => rw [hn] at he; cases he
    | some sl =>
      rw [hn] at he
      injection he with he
      dsimp only
      subst he
      dsimp only at ht
      rw [ht, em]
      simp only [Option.map, Safrole.finish, fin, afterPost, Stf.mid, hf, withTickets, if_true]
  | false =>
    have hf' : ¬ s0.slot / W.S.epoch < b.slot / W.S.epoch := of_decide_eq_false hf
    rw [hf] at he
    simp only [if_false, Bool.false_eq_true] at he
    injection he with he
    subst he
    simp only [if_neg hf', ht, em]
    simp only [Option.map, Safrole.finish, fin, afterPost, Stf.mid, hf, withTickets, if_false, Bool.false_eq_true]

end Fastroll.Stf
