import Verif.Safrole.Lemmas

/-! # Lemmas: blocks and chains of blocks -/
namespace Fastroll.Safrole

variable {κ ρ η : Type} [DecidableEq κ]

/-- What a block does, field by field. -/
theorem block_some {H : Heap} {P : Par} {C : Crypto κ ρ η} {s s' : State κ ρ η} {b : Blk κ η} (h : block H P C s b = some s') :
    s.slot < b.slot ∧ s'.slot = b.slot ∧ s'.e0 = C.mix s.e0 b.vrf ∧ s'.staging = b.staged.getD s.staging ∧
    ((epochOf P s.slot < epochOf P b.slot ∧ s'.e1 = s.e0 ∧ s'.e2 = s.e1 ∧ s'.e3 = s.e2 ∧ s'.past = s.active ∧ s'.active = s.saf.pending ∧
        s'.saf.pending = nullify C.zero b.punished s.staging ∧ s'.saf.root = C.ringRoot s'.saf.pending ∧
        nextSealers H P C s.saf s.slot b.slot s.saf.pending s.e1 = some s'.saf.sealers ∧
        ∃ new, validate H P (phaseOf P b.slot) [] b.tickets = .ok new ∧ s'.saf.acc = addMany H P.epoch [] new) ∨
     (epochOf P s.slot = epochOf P b.slot ∧ s'.e1 = s.e1 ∧ s'.e2 = s.e2 ∧ s'.e3 = s.e3 ∧ s'.past = s.past ∧ s'.active = s.active ∧
        s'.saf.pending = s.saf.pending ∧ s'.saf.root = s.saf.root ∧ s'.saf.sealers = s.saf.sealers ∧
        ∃ new, validate H P (phaseOf P b.slot) s.saf.acc b.tickets = .ok new ∧ s'.saf.acc = addMany H P.epoch s.saf.acc new)) := by
  unfold block at h
  cases hh : header H P C s b with
  | none => rw [hh] at h; cases h
  | some s1 =>
    rw [hh] at h
    simp only [Option.map_some, Option.some.injEq] at h
    unfold header at hh
    by_cases c : b.slot ≤ s.slot
    · rw [if_pos c] at hh; cases hh
    · rw [if_neg c] at hh
      have hle : s.slot / P.epoch ≤ b.slot / P.epoch := Nat.div_le_div_right (by omega)
      by_cases f : s.slot / P.epoch < b.slot / P.epoch
      · simp only [f, if_true] at hh
        cases hn : nextSealers H P C s.saf s.slot b.slot s.saf.pending s.e1 with
        | none => rw [hn] at hh; cases hh
        | some sl =>
          rw [hn] at hh
          simp only at hh
          cases hv : validate H P (b.slot % P.epoch) [] b.tickets with
          | error x => rw [hv] at hh; cases hh
          | ok new =>
            rw [hv] at hh
            simp only [Option.some.injEq] at hh
            subst hh; subst h
            exact ⟨by omega, rfl, rfl, rfl, .inl ⟨f, rfl, rfl, rfl, rfl, rfl, rfl, rfl, rfl, new, hv, rfl⟩⟩
      · simp only [f, if_false] at hh
        cases hv : validate H P (b.slot % P.epoch) s.saf.acc b.tickets with
        | error x => rw [hv] at hh; cases hh
        | ok new =>
          rw [hv] at hh
          simp only [Option.some.injEq] at hh
          subst hh; subst h
          exact ⟨by omega, rfl, rfl, rfl, .inr ⟨by unfold epochOf; omega, rfl, rfl, rfl, rfl, rfl, rfl, rfl, rfl, new, hv, rfl⟩⟩

/-! ## Rotation -/

theorem take_congr {α : Type} : ∀ (x : List α) {l l' : List α} {n : Nat}, l.take n = l'.take n → (x ++ l).take n = (x ++ l').take n := by
  intro x
  induction x with
  | nil => intro _ _ _ h; exact h
  | cons a x ih =>
    intro l l' n h
    cases n with
    | zero => rfl
    | succ n =>
      simp only [List.cons_append, List.take_succ_cons]
      congr 1
      refine ih ?_
      have := congrArg (List.take n) h
      rwa [List.take_take, List.take_take, Nat.min_eq_left (by omega)] at this

theorem firsts_cons (P : Par) (e : State κ ρ η × Blk κ η) (l : List (State κ ρ η × Blk κ η)) :
    firsts P (e :: l) = firsts P l ++ (if epochOf P e.1.slot ≠ epochOf P e.2.slot then [e] else []) := by
  unfold firsts
  rw [List.filter_cons]
  split
  · next c =>
    rw [if_pos (by simpa using c), List.reverse_cons]
  · next c =>
    rw [if_neg (by simpa using c), List.append_nil]

theorem chain_rotation (H : Heap) (P : Par) (C : Crypto κ ρ η) : ∀ (bs : List (Blk κ η)) {s s' : State κ ρ η}, chain H P C bs s = some s' →
    [s'.saf.pending, s'.active, s'.past] =
      ((firsts P (befores H P C bs s)).map (fun e => nullify C.zero e.2.punished e.1.staging) ++ [s.saf.pending, s.active, s.past]).take 3 ∧
    [s'.e1, s'.e2, s'.e3] = ((firsts P (befores H P C bs s)).map (fun e => e.1.e0) ++ [s.e1, s.e2, s.e3]).take 3 ∧
    s'.e0 = bs.foldl (fun e b => C.mix e b.vrf) s.e0 ∧
    s'.staging = bs.foldl (fun v b => b.staged.getD v) s.staging ∧
    s.slot ≤ s'.slot ∧ s'.slot = (bs.getLast?.map Blk.slot).getD s.slot := by
  intro bs
  induction bs with
  | nil =>
    intro s s' h
    cases h
    exact ⟨rfl, rfl, rfl, rfl, Nat.le_refl _, rfl⟩
  | cons b bs ih =>
    intro s s' h
    unfold chain at h
    cases hb : block H P C s b with
    | none => rw [hb] at h; cases h
    | some s1 =>
      rw [hb] at h
      simp only at h
      obtain ⟨i1, i2, i3, i4, i5, i6⟩ := ih h
      obtain ⟨b1, b2, b3, b4, b5⟩ := block_some hb
      have hbf : befores H P C (b :: bs) s = (s, b) :: befores H P C bs s1 := by
        conv => lhs; unfold befores
        rw [hb]
      rw [hbf, firsts_cons]
      refine ⟨?_, ?_, ?_, ?_, by omega, ?_⟩
      · rw [i1, List.map_append, List.append_assoc]
        refine take_congr _ ?_
        rcases b5 with ⟨f, _, _, _, q1, q2, q3, _⟩ | ⟨f, _, _, _, q1, q2, q3, _⟩
        · rw [if_pos (by simp only; omega), q1, q2, q3]; rfl
        · rw [if_neg (by simp only; omega), q1, q2, q3]; rfl
      · rw [i2, List.map_append, List.append_assoc]
        refine take_congr _ ?_
        rcases b5 with ⟨f, q1, q2, q3, _⟩ | ⟨f, q1, q2, q3, _⟩
        · rw [if_pos (by simp only; omega), q1, q2, q3]; rfl
        · rw [if_neg (by simp only; omega), q1, q2, q3]; rfl
      · rw [i3, b3]; rfl
      · rw [i4, b4]; rfl
      · rw [i6]
        cases bs with
        | nil => simp [b2]
        | cons c cs => rw [List.getLast?_cons_cons]; simp [List.getLast?_cons]

/-! ## The accumulator and the sealers within an epoch -/

theorem validate_late {H : Heap} {P : Par} {phase : Nat} {acc new : List Ticket} {xt : List Entry} (h : validate H P phase acc xt = .ok new)
    (hp : P.contest ≤ phase) : new = [] := by
  rcases validate_ok h with h | h
  · exact h.1
  · omega

theorem addMany_nil (H : Heap) (E : Nat) (acc : List Ticket) : addMany H E acc [] = acc := rfl

theorem addMany_length (H : Heap) {E : Nat} {acc ts : List Ticket} (h : acc.length ≤ E) : (addMany H E acc ts).length = min E (acc.length + ts.length) := by
  obtain ⟨_, _, h, _⟩ := addMany_lowest H ts acc acc (lowest_self h)
  rw [h, List.length_append]

theorem validate_offers {H : Heap} {P : Par} {phase : Nat} {acc new : List Ticket} {xt : List Entry} (h : validate H P phase acc xt = .ok new) :
    ((newTickets xt).toOption).getD [] = new := by
  rcases validate_ok h with ⟨h1, h2⟩ | ⟨_, _, h, _⟩
  · subst h1; subst h2; rfl
  · rw [h]; rfl

/-- Within an epoch: sealers stay, the accumulator is the lowest of everything offered, and the winners
are announced once, when the contest ends, if the accumulator is full. -/
theorem epoch_run (H : Heap) (P : Par) (C : Crypto κ ρ η) (hE : 0 < P.epoch) : ∀ (bs : List (Blk κ η)) {s s' : State κ ρ η} {off : List Ticket},
    chain H P C bs s = some s' → (∀ b ∈ bs, epochOf P b.slot = epochOf P s.slot) → Lowest P.epoch off s.saf.acc →
    s'.saf.sealers = s.saf.sealers ∧ epochOf P s'.slot = epochOf P s.slot ∧ Lowest P.epoch (off ++ offers bs) s'.saf.acc ∧
    (P.contest ≤ phaseOf P s.slot → s'.saf.acc = s.saf.acc ∧ announced H P C bs s = []) ∧
    (phaseOf P s'.slot < P.contest → announced H P C bs s = []) ∧
    (phaseOf P s.slot < P.contest → P.contest ≤ phaseOf P s'.slot →
      announced H P C bs s = if s'.saf.acc.length = P.epoch then (outsideIn (H.sorted s'.saf.acc)).toList else []) := by
  intro bs
  induction bs with
  | nil =>
    intro s s' off h _ hl
    cases h
    exact ⟨rfl, rfl, by simpa [offers] using hl, fun _ => ⟨rfl, rfl⟩, fun _ => rfl, fun h1 h2 => absurd h1 (by omega)⟩
  | cons b bs ih =>
    intro s s' off h hin hl
    unfold chain at h
    cases hb : block H P C s b with
    | none => rw [hb] at h; cases h
    | some s1 =>
      rw [hb] at h
      simp only at h
      obtain ⟨b1, b2, b3, b4, b5⟩ := block_some hb
      have hbe := hin b (List.mem_cons_self ..)
      rcases b5 with ⟨f, _⟩ | ⟨f, _, _, _, _, _, _, _, q, new, hv, ha⟩
      · omega
      have hnew := validate_offers hv
      have hl1 : Lowest P.epoch (off ++ new) s1.saf.acc := by rw [ha]; exact addMany_lowest H new off _ hl
      have he1 : epochOf P s1.slot = epochOf P s.slot := by rw [b2, hbe]
      obtain ⟨i1, i2, i3, i4, i5, i6⟩ := ih h (fun c hc => by rw [he1]; exact hin c (List.mem_cons_of_mem _ hc)) hl1
      have hph : phaseOf P s.slot < phaseOf P s1.slot := by
        have h1 := Nat.div_add_mod s.slot P.epoch
        have h2 := Nat.div_add_mod b.slot P.epoch
        unfold epochOf at f
        unfold phaseOf
        rw [b2]
        rw [f] at h1
        omega
      have hann : announced H P C (b :: bs) s = ((winnersMark H P s s1).join).toList ++ announced H P C bs s1 := by
        conv => lhs; unfold announced
        rw [hb]
      have hnf : ¬ s.slot / P.epoch < s1.slot / P.epoch := by unfold epochOf at he1; omega
      have hmono : ∀ (bs : List (Blk κ η)) {s s' : State κ ρ η}, chain H P C bs s = some s' → s.slot ≤ s'.slot := fun bs s s' h =>
        (chain_rotation H P C bs h).2.2.2.2.1
      have hm := hmono bs h
      have hph' : phaseOf P s1.slot ≤ phaseOf P s'.slot := by
        have h1 := Nat.div_add_mod s1.slot P.epoch
        have h2 := Nat.div_add_mod s'.slot P.epoch
        unfold epochOf at i2
        unfold phaseOf
        rw [i2] at h2
        omega
      rw [hann]
      refine ⟨i1.trans q, i2.trans he1, ?_, ?_, ?_, ?_⟩
      · have : offers (b :: bs) = new ++ offers bs := by unfold offers; rw [List.flatMap_cons, hnew]
        rw [this, ← List.append_assoc]; exact i3
      · intro hc
        have hn0 : new = [] := validate_late hv (by rw [← b2]; omega)
        obtain ⟨j1, j2⟩ := i4 (by omega)
        rw [hn0, addMany_nil] at ha
        refine ⟨j1.trans ha, ?_⟩
        have : winnersMark H P s s1 = some none := by
          unfold winnersMark; rw [if_neg]; unfold phaseOf at hc; omega
        rw [this, j2]; rfl
      · intro hc
        have : winnersMark H P s s1 = some none := by
          unfold winnersMark; rw [if_neg]; unfold phaseOf at *; omega
        rw [this, i5 hc]; rfl
      · intro hc hc'
        by_cases c1 : phaseOf P s1.slot < P.contest
        · have : winnersMark H P s s1 = some none := by
            unfold winnersMark; rw [if_neg]; unfold phaseOf at *; omega
          rw [this, i6 c1 hc']; rfl
        · have hn0 : new = [] := validate_late hv (by rw [← b2]; omega)
          rw [hn0, addMany_nil] at ha
          obtain ⟨j1, j2⟩ := i4 (by omega)
          rw [j2, List.append_nil, j1, ha]
          unfold winnersMark
          by_cases cl : s.saf.acc.length = P.epoch
          · rw [if_pos ⟨hnf, hc, by unfold phaseOf at *; omega, cl⟩, if_pos cl]
            have hsl : (H.sorted s.saf.acc).length = P.epoch := by rw [(H.sorted_perm _).length_eq, cl]
            obtain ⟨r, hr, ho, _⟩ := outsideIn_spec (v := H.sorted s.saf.acc) (fun e => by rw [e] at hsl; simp at hsl; omega)
            rw [hr]
            simp only
            rw [if_pos (by rw [ho.1, hsl])]; rfl
          · rw [if_neg (fun c => cl c.2.2.2), if_neg cl]; rfl

/-! ## Sealers -/

theorem mapM_some {α β : Type} (f : α → Option β) (g : α → β) : ∀ (l : List α), (∀ a ∈ l, f a = some (g a)) → l.mapM f = some (l.map g) := by
  intro l
  induction l with
  | nil => intro _; rfl
  | cons a l ih =>
    intro h
    rw [List.mapM_cons, h a (List.mem_cons_self ..), ih fun x hx => h x (List.mem_cons_of_mem _ hx)]; rfl

theorem mapM_length {α β : Type} (f : α → Option β) : ∀ (l : List α) {r : List β}, l.mapM f = some r → r.length = l.length ∧
    ∀ i : Nat, ∀ a, l[i]? = some a → ∃ b, f a = some b ∧ r[i]? = some b := by
  intro l
  induction l with
  | nil => intro r h; cases h; exact ⟨rfl, fun i a h => by simp at h⟩
  | cons a l ih =>
    intro r h
    rw [List.mapM_cons] at h
    cases ha : f a with
    | none => rw [ha] at h; cases h
    | some x =>
      rw [ha] at h
      cases hl : l.mapM f with
      | none => rw [hl] at h; cases h
      | some xs =>
        rw [hl] at h
        cases h
        obtain ⟨i1, i2⟩ := ih hl
        refine ⟨by simp [i1], ?_⟩
        intro i b hb
        cases i with
        | zero => simp only [List.getElem?_cons_zero, Option.some.injEq] at hb ⊢; subst hb; exact ⟨x, ha, rfl⟩
        | succ i => simp only [List.getElem?_cons_succ] at hb ⊢; exact i2 i b hb

theorem nextSealers_length {H : Heap} {P : Par} {C : Crypto κ ρ η} {prior : Saf κ ρ} {was now : Nat} {active : List (VKey κ)} {e2 : η} {sl : Sealers κ}
    (h : nextSealers H P C prior was now active e2 = some sl) : sl.length = P.epoch := by
  unfold nextSealers at h
  split at h
  · cases hf : fallbackKeys P (C.word e2) active with
    | none => rw [hf] at h; cases h
    | some l =>
      rw [hf] at h
      cases h
      have := (mapM_length _ _ hf).1
      simpa [Sealers.length] using this
  · cases ho : outsideIn (H.sorted prior.acc) with
    | none => rw [ho] at h; cases h
    | some l =>
      rw [ho] at h
      simp only at h
      split at h
      · next c => cases h; exact c
      · cases h

theorem chain_sealers (H : Heap) (P : Par) (C : Crypto κ ρ η) : ∀ (bs : List (Blk κ η)) {s s' : State κ ρ η}, chain H P C bs s = some s' →
    s.saf.sealers.length = P.epoch → s'.saf.sealers.length = P.epoch := by
  intro bs
  induction bs with
  | nil => intro s s' h hs; cases h; exact hs
  | cons b bs ih =>
    intro s s' h hs
    unfold chain at h
    cases hb : block H P C s b with
    | none => rw [hb] at h; cases h
    | some s1 =>
      rw [hb] at h
      refine ih h ?_
      obtain ⟨_, _, _, _, b5⟩ := block_some hb
      rcases b5 with ⟨_, _, _, _, _, _, _, _, q, _⟩ | ⟨_, _, _, _, _, _, _, _, q, _⟩
      · exact nextSealers_length q
      · rw [q]; exact hs

theorem nextSealers_some (H : Heap) {P : Par} (C : Crypto κ ρ η) (hE : 0 < P.epoch) (hV : 0 < P.validators) (prior : Saf κ ρ) (was now : Nat)
    {active : List (VKey κ)} (e2 : η) (ha : active.length = P.validators) : ∃ sl, nextSealers H P C prior was now active e2 = some sl := by
  unfold nextSealers
  split
  · have : fallbackKeys P (C.word e2) active = some ((List.range P.epoch).map fun i => (active[C.word e2 i % P.validators]'(by rw [ha]; exact Nat.mod_lt _ hV)).bander) := by
      refine mapM_some _ _ _ ?_
      intro i _
      rw [List.getElem?_eq_getElem (by rw [ha]; exact Nat.mod_lt _ hV)]; rfl
    rw [this]
    exact ⟨_, rfl⟩
  · next c =>
    have hc : prior.acc.length = P.epoch := by
      refine Decidable.byContradiction fun h => c (.inr (.inr h))
    have hsl : (H.sorted prior.acc).length = P.epoch := by rw [(H.sorted_perm _).length_eq, hc]
    obtain ⟨r, hr, ho, _⟩ := outsideIn_spec (v := H.sorted prior.acc) (fun e => by rw [e] at hsl; simp at hsl; omega)
    rw [hr]
    simp only
    rw [if_pos (by rw [ho.1, hsl])]
    exact ⟨_, rfl⟩

theorem block_wf {H : Heap} {P : Par} {C : Crypto κ ρ η} {s s' : State κ ρ η} {b : Blk κ η} (hw : WF P s) (hb : WFBlk P b) (h : block H P C s b = some s') : WF P s' := by
  obtain ⟨_, _, _, b4, b5⟩ := block_some h
  obtain ⟨w1, w2, w3, w4, w5, w6⟩ := hw
  have hst : s'.staging.length = P.validators := by
    rw [b4]
    cases hg : b.staged with
    | none => exact w4
    | some v => exact hb v hg
  rcases b5 with ⟨_, _, _, _, q1, q2, q3, _, q4, new, _, ha⟩ | ⟨_, _, _, _, q1, q2, q3, _, q4, new, _, ha⟩
  · refine ⟨by rw [q3]; simpa [nullify] using w4, by rw [q2]; exact w1, by rw [q1]; exact w2, hst, ?_, nextSealers_length q4⟩
    rw [ha, addMany_length H (by simp)]; omega
  · refine ⟨by rw [q3]; exact w1, by rw [q2]; exact w2, by rw [q1]; exact w3, hst, ?_, by rw [q4]; exact w6⟩
    rw [ha, addMany_length H w5]; omega

end Fastroll.Safrole
