import Verif.Ring.Inv
/-!
# The invariant over histories
-/
namespace Fastroll.Ring
open Fastroll.Ring.Spec

variable {V H : Type} [DecidableEq H] {W : World V H} {occ : List VKey → Prop}

/-- The invariant of a cache and the chain state it belongs to. -/
structure SInv (W : World V H) (occ : List VKey → Prop) (c : Cache V H) (ch : Chain) : Prop where
  core : Core W occ ch.slot ch.slot ch.staging ch.punish ch.pending c
  hash : c.lastHash = W.hash (nullify ch.staging ch.punish) ∨ c.lastSlot = 0
  io : ∀ p, occ (nullify ch.staging p)
  pe : occ ch.pending

/-- What is assumed of the sets of a history. -/
structure World.Ok (W : World V H) (occ : List VKey → Prop) : Prop where
  inj : ∀ a a', occ a → occ a' → W.hash a = W.hash a' → a = a'
  null : ∀ a p, occ a → occ (nullify a p)

/-- Linear histories: the outstanding tasks belong to this chain. -/
def LinInv (n : Node V H) : Prop :=
  ∀ t ∈ n.tasks, t.slot ≤ n.chain.slot ∧ Fits n.chain.staging n.chain.punish n.cache.lastSlot t

structure NInv (W : World V H) (occ : List VKey → Prop) (n : Node V H) : Prop where
  here : SInv W occ n.cache n.chain
  tasks : ∀ t ∈ n.tasks, TaskOk W occ t
  snaps : ∀ s ∈ n.snaps, SInv W occ s.1 s.2

/-- A node in the middle of a block. -/
structure MInv (W : World V H) (occ : List VKey → Prop) (bs bc : Nat) (io : List VKey) (ps : List Nat)
    (pe : List VKey) (ls : Nat) (ts : List (Task H)) (m : Mid V H) : Prop where
  core : Core W occ bs bc io ps pe m.cache
  slot : m.cache.lastSlot = ls
  sub : ∀ t ∈ m.tasks, t ∈ ts

variable {bs bc ls : Nat} {io pe : List VKey} {ps : List Nat} {ts : List (Task H)} {m : Mid V H}

theorem MInv.run_fits (h : MInv W occ bs bc io ps pe ls ts m) (ht : ∀ t ∈ ts, TaskOk W occ t)
    (is : List Nat) (hf : is = [] ∨ ∀ t ∈ ts, Fits io ps ls t) :
    MInv W occ bs bc io ps pe ls ts (m.run W is) := by
  refine ⟨?_, ?_, ?_⟩
  · rcases hf with rfl | hf
    · exact h.core
    · refine Core.finishAll_fits is m.cache m.tasks h.core (fun t hm => ht t (h.sub t hm)) ?_
      intro t hm e1 _
      exact hf t (h.sub t hm) (by rw [← e1, h.slot])
  · unfold Mid.run
    exact (finishAll_last _ _ _).2.1.trans h.slot
  · intro t hm
    exact h.sub t (finishAll_sub _ _ _ t hm)

theorem MInv.run_hash (h : MInv W occ bs bc io ps pe ls ts m) (ht : ∀ t ∈ ts, TaskOk W occ t)
    (ok : W.Ok occ) (ho : occ (nullify io ps)) (hh : m.cache.lastHash = W.hash (nullify io ps))
    (is : List Nat) :
    MInv W occ bs bc io ps pe ls ts (m.run W is) ∧
      (m.run W is).cache.lastHash = W.hash (nullify io ps) := by
  refine ⟨⟨?_, ?_, ?_⟩, ?_⟩
  · exact h.core.finishAll_hash m.tasks is (fun t hm => ht t (h.sub t hm)) ok.inj ho (Or.inl hh)
  · unfold Mid.run
    exact (finishAll_last _ _ _).2.1.trans h.slot
  · intro t hm
    exact h.sub t (finishAll_sub _ _ _ t hm)
  · unfold Mid.run
    exact (finishAll_last _ _ _).1.trans hh

theorem nullifyStaging_slot (c : Cache V H) (off : List Nat) :
    (nullifyStaging W c off).lastSlot = c.lastSlot := by
  unfold nullifyStaging
  split
  · rfl
  · dsimp only
    split <;> rfl

theorem fits_more {t : Task H} (h : Fits io ps ls t) (off : List Nat) : Fits io (ps ++ off) ls t := by
  intro e
  rw [← nullify_nullify, h e, nullify_nullify]

theorem before_inv {c : Cache V H} {sl : Nat} (h : Core W occ sl sl io ps pe c)
    (ht : ∀ t ∈ ts, TaskOk W occ t) (ok : W.Ok occ) (b : Block) (hs : sl < b.slot)
    (hf : (b.t1 = [] ∧ b.t2 = []) ∨ ∀ t ∈ ts, Fits io ps c.lastSlot t) (e : Bool) :
    MInv W occ sl b.slot io (ps ++ b.offenders)
      (if e then nullify io (ps ++ b.offenders) else pe) c.lastSlot ts
      (beforeDisputes W ⟨c, ts⟩ e b) := by
  have hf1 : b.t1 = [] ∨ ∀ t ∈ ts, Fits io (ps ++ b.offenders) c.lastSlot t :=
    hf.imp (fun x => x.1) (fun x t hm => fits_more (x t hm) _)
  have hf2 : b.t2 = [] ∨ ∀ t ∈ ts, Fits io (ps ++ b.offenders) c.lastSlot t :=
    hf.imp (fun x => x.2) (fun x t hm => fits_more (x t hm) _)
  unfold beforeDisputes
  dsimp only
  have h0 : MInv W occ sl b.slot io (ps ++ b.offenders) pe c.lastSlot ts
      ⟨nullifyStaging W c b.offenders, ts⟩ :=
    ⟨(h.nullifyStaging b.offenders ok.null).mono (Nat.le_refl _) (Nat.le_of_lt hs),
      nullifyStaging_slot c _, fun t ht => ht⟩
  have h1 := h0.run_fits ht b.t1 hf1
  generalize Mid.run W ⟨nullifyStaging W c b.offenders, ts⟩ b.t1 = m1 at h1 ⊢
  refine MInv.run_fits ?_ ht b.t2 hf2
  cases e with
  | true => exact ⟨h1.core.rotate (Nat.le_of_lt hs), h1.slot, h1.sub⟩
  | false => exact ⟨h1.core, h1.slot, h1.sub⟩

theorem after_inv (h : MInv W occ bs bc io ps pe ls ts m) (ht : ∀ t ∈ ts, TaskOk W occ t)
    (ok : W.Ok occ) (ho : occ (nullify io ps)) (b : Block) :
    MInv W occ bs bc io ps pe ls ts (afterDisputes W m io ps b) ∧
      (afterDisputes W m io ps b).cache.lastHash = W.hash (nullify io ps) := by
  unfold afterDisputes
  refine MInv.run_hash (m := ⟨{ m.cache with lastHash := W.hash (nullify io ps) }, m.tasks⟩) ⟨h.core.setHash _, h.slot, h.sub⟩ ht ok ho rfl b.t3

theorem getStaging_last (c : Cache V H) (slot : Nat) (s : List VKey) :
    (getStaging W c slot s).1.lastHash = c.lastHash ∧ (getStaging W c slot s).1.lastSlot = c.lastSlot := by
  unfold getStaging
  split
  · exact ⟨rfl, rfl⟩
  · exact ⟨(put_last _ _).1, (put_last _ _).2.1⟩

theorem getCurr_last (c : Cache V H) (slot : Nat) (s : List VKey) :
    (getCurr W c slot s).1.lastHash = c.lastHash ∧ (getCurr W c slot s).1.lastSlot = c.lastSlot := by
  unfold getCurr
  split <;> exact ⟨rfl, rfl⟩

theorem epoch_inv {sl : Nat} (b : Block) (hs : sl < b.slot)
    (h : MInv W occ sl b.slot io ps pe ls ts m) (ht : ∀ t ∈ ts, TaskOk W occ t) (ok : W.Ok occ)
    (ho : occ (nullify io ps)) (hh : m.cache.lastHash = W.hash (nullify io ps)) (e : Bool) :
    MInv W occ (if e then b.slot else sl) b.slot io ps pe ls ts (epochStep W m e (nullify io ps) b).1 ∧
      (epochStep W m e (nullify io ps) b).1.cache.lastHash = W.hash (nullify io ps) := by
  unfold epochStep
  cases e with
  | true =>
    simp only [if_true]
    have hl := getStaging_last (W := W) m.cache b.slot (nullify io ps)
    refine MInv.run_hash (m := ⟨(getStaging W m.cache b.slot (nullify io ps)).1, m.tasks⟩) ⟨?_, hl.2.trans h.slot, h.sub⟩ ht ok ho (hl.1.trans hh) b.t4
    exact (h.core.mono (Nat.le_of_lt hs) (Nat.le_refl _)).getStaging b.slot (Nat.le_refl _) ho
  | false =>
    simp only [Bool.false_eq_true, if_false]
    exact h.run_hash ht ok ho hh b.t4

theorem ticket_inv (b : Block) (h : MInv W occ bs b.slot io ps pe ls ts m)
    (ht : ∀ t ∈ ts, TaskOk W occ t) (ok : W.Ok occ) (ho : occ (nullify io ps)) (hp : occ pe)
    (hh : m.cache.lastHash = W.hash (nullify io ps)) :
    MInv W occ bs b.slot io ps pe ls ts (ticketStep W m pe b).1 ∧
      (ticketStep W m pe b).1.cache.lastHash = W.hash (nullify io ps) ∧
      ∀ v, (ticketStep W m pe b).2 = some v → v = W.gen pe := by
  unfold ticketStep
  split
  · have hl := getCurr_last (W := W) m.cache b.slot pe
    have := MInv.run_hash (m := ⟨(getCurr W m.cache b.slot pe).1, m.tasks⟩) ⟨h.core.getCurr b.slot (Nat.le_refl _) hp, hl.2.trans h.slot, h.sub⟩ ht ok ho
      (hl.1.trans hh) b.t5
    refine ⟨this.1, this.2, ?_⟩
    intro v hv
    injection hv with hv
    rw [← hv]
    exact h.core.getCurr_ok b.slot hh ho ok.inj
  · have := h.run_hash ht ok ho hh b.t5
    exact ⟨this.1, this.2, fun v hv => by cases hv⟩

/-- The pending set of a block. -/
def pendingOf (E : Nat) (ch : Chain) (b : Block) : List VKey :=
  if newEpoch E ch.slot b.slot then nullify ch.staging (ch.punish ++ b.offenders) else ch.pending

/-- What is assumed of a block. -/
structure BlockOk (W : World V H) (occ : List VKey → Prop) (E : Nat) (r : Bool) (n : Node V H) (b : Block) :
    Prop where
  desig : ∀ s, b.designate = some s → ∀ p, occ (nullify s p)
  quiet : newEpoch E n.chain.slot b.slot = true → b.designate = none
  rej : r = true ∨ b.reject = none ∨ b.reject = some .early

theorem runBlock_inv (E : Nat) (r : Bool) (n : Node V H) (b : Block) (hn : NInv W occ n) (ok : W.Ok occ)
    (hb : BlockOk W occ E r n b)
    (hf : (b.t1 = [] ∧ b.t2 = []) ∨ (LinInv n ∧ b.reject ≠ some .late)) :
    NInv W occ (runBlock W E r n b).1 ∧
    (LinInv n → b.reject ≠ some .late → LinInv (runBlock W E r n b).1) ∧
    ∀ v, (runBlock W E r n b).2.tickets = some v → v = W.gen (pendingOf E n.chain b) := by
  unfold runBlock
  by_cases h0 : b.slot ≤ n.chain.slot ∨ b.reject = some .early
  · rw [if_pos h0]
    exact ⟨hn, fun h _ => h, fun v h => by cases h⟩
  · rw [if_neg h0]
    dsimp only
    have hs : n.chain.slot < b.slot := by
      have : ¬ b.slot ≤ n.chain.slot := fun h => h0 (Or.inl h)
      omega
    have hr : b.reject = none ∨ r = true := by
      rcases hb.rej with h | h | h
      · exact Or.inr h
      · exact Or.inl h
      · exact absurd (Or.inr h) h0
    -- a rejected block
    have rej : ∀ (m : Mid V H), b.reject ≠ none → (∀ t ∈ m.tasks, t ∈ n.tasks ∨ TaskOk W occ t) →
        NInv W occ (rejected n r m) := by
      intro m hne hsub
      have hr : r = true := hr.resolve_left hne
      subst hr
      exact ⟨hn.here, fun t hm => (hsub t hm).elim (hn.tasks t) id, hn.snaps⟩
    have rejl : ∀ (m : Mid V H), b.reject ≠ none → (∀ t ∈ m.tasks, t ∈ n.tasks) →
        LinInv n → LinInv (rejected n r m) := by
      intro m hne hsub hl
      have hr : r = true := hr.resolve_left hne
      subst hr
      exact fun t hm => hl t (hsub t hm)
    have hf' : (b.t1 = [] ∧ b.t2 = []) ∨
        ∀ t ∈ n.tasks, Fits n.chain.staging n.chain.punish n.cache.lastSlot t :=
      hf.imp id (fun x t hm => (x.1 t hm).2)
    have i1 := before_inv hn.here.core hn.tasks ok b hs hf' (newEpoch E n.chain.slot b.slot)
    have ho := hn.here.io (n.chain.punish ++ b.offenders)
    have hp : occ (pendingOf E n.chain b) := by
      unfold pendingOf
      split
      · exact ho
      · exact hn.here.pe
    change MInv W occ _ _ _ _ (pendingOf E n.chain b) _ _ _ at i1
    change _ ∧ _ ∧ _
    have ep : (if newEpoch E n.chain.slot b.slot = true then
      nullify n.chain.staging (n.chain.punish ++ b.offenders) else n.chain.pending) =
      pendingOf E n.chain b := rfl
    rw [ep]
    have hq := hb.quiet
    generalize pendingOf E n.chain b = pe at *
    generalize newEpoch E n.chain.slot b.slot = e at *
    generalize beforeDisputes W ⟨n.cache, n.tasks⟩ e b = m1 at i1 ⊢
    by_cases h1 : b.reject = some .disputes
    · rw [if_pos h1]
      exact ⟨rej _ (by rw [h1]; exact fun h => by cases h) (fun t hm => Or.inl (i1.sub t hm)),
        fun hl _ => rejl _ (by rw [h1]; exact fun h => by cases h) i1.sub hl, fun v h => by cases h⟩
    · rw [if_neg h1]
      have i2 := after_inv i1 hn.tasks ok ho b
      generalize afterDisputes W m1 n.chain.staging (n.chain.punish ++ b.offenders) b = m2 at i2 ⊢
      have i3 := epoch_inv b hs i2.1 hn.tasks ok ho i2.2 e
      generalize epochStep W m2 e (nullify n.chain.staging (n.chain.punish ++ b.offenders)) b = q3 at i3 ⊢
      have i4 := ticket_inv b i3.1 hn.tasks ok ho hp i3.2
      generalize ticketStep W q3.1 pe b = q4 at i4 ⊢
      obtain ⟨i4, hh, hv⟩ := i4
      by_cases h2 : b.reject = some .tickets
      · rw [if_pos h2]
        exact ⟨rej _ (by rw [h2]; exact fun h => by cases h) (fun t hm => Or.inl (i4.sub t hm)),
          fun hl _ => rejl _ (by rw [h2]; exact fun h => by cases h) i4.sub hl, hv⟩
      · rw [if_neg h2]
        -- the designation
        have i5 : SInv W occ (designateStep W q4.1 (n.chain.punish ++ b.offenders) b).cache
            ⟨b.slot, b.designate.getD n.chain.staging, n.chain.punish ++ b.offenders, pe⟩ := by
          unfold designateStep
          cases hd : b.designate with
          | none =>
            dsimp only [Option.getD]
            refine ⟨?_, Or.inl hh, hn.here.io, hp⟩
            refine i4.core.mono ?_ (Nat.le_refl _)
            dsimp only
            split <;> omega
          | some s =>
            dsimp only [Option.getD]
            have he : e = false := by
              cases e with
              | false => rfl
              | true => rw [hd] at hq; cases hq rfl
            subst he
            refine ⟨?_, Or.inl rfl, hb.desig s hd, hp⟩
            exact i4.core.designate b.slot hs (Nat.le_refl _) s _
        have hsub : ∀ t ∈ (designateStep W q4.1 (n.chain.punish ++ b.offenders) b).tasks,
            t ∈ n.tasks ∨ (TaskOk W occ t ∧ t.slot = b.slot ∧ b.designate = some t.set ∧
              t.punish = n.chain.punish ++ b.offenders) := by
          intro t hm
          unfold designateStep at hm
          cases hd : b.designate with
          | none =>
            rw [hd] at hm
            exact Or.inl (i4.sub t hm)
          | some s =>
            rw [hd] at hm
            rcases List.mem_append.1 hm with hm | hm
            · exact Or.inl (i4.sub t hm)
            · rw [List.mem_singleton.1 hm]
              exact Or.inr ⟨⟨hb.desig s hd _, rfl, Nat.lt_of_le_of_lt (Nat.zero_le _) hs⟩, rfl, rfl, rfl⟩
        have hslot : (designateStep W q4.1 (n.chain.punish ++ b.offenders) b).cache.lastSlot =
            (if b.designate = none then n.cache.lastSlot else b.slot) := by
          unfold designateStep
          cases hd : b.designate with
          | none => rw [if_pos rfl]; exact i4.slot
          | some s => rw [if_neg (fun h => by cases h)]
        generalize designateStep W q4.1 (n.chain.punish ++ b.offenders) b = m5 at i5 hsub hslot ⊢
        by_cases h3 : b.reject = some .late
        · rw [if_pos h3]
          refine ⟨rej _ (by rw [h3]; exact fun h => by cases h) (fun t hm => (hsub t hm).imp id (·.1)), ?_, hv⟩
          intro _ hne
          exact absurd h3 hne
        · rw [if_neg h3]
          refine ⟨⟨i5, fun t hm => (hsub t hm).elim (hn.tasks t) (·.1), ?_⟩, ?_, hv⟩
          · intro s hsn
            rcases List.mem_append.1 hsn with hsn | hsn
            · exact hn.snaps s hsn
            · rw [List.mem_singleton.1 hsn]
              exact i5
          · intro hl _ t hm
            dsimp only
            rcases hsub t hm with hm | ⟨_, e1, e2, e3⟩
            · have := hl t hm
              refine ⟨by omega, ?_⟩
              cases hd : b.designate with
              | none =>
                rw [hslot, hd, if_pos rfl]
                exact fits_more this.2 _
              | some s =>
                rw [hslot, hd, if_neg (fun h => by cases h)]
                intro e
                omega
            · refine ⟨by omega, ?_⟩
              intro _
              rw [e2]
              unfold Task.result
              rw [e3, nullify_idem]
              rfl

/-- What is assumed of a history: how rejected blocks are handled, and when background tasks complete. -/
structure OpsOk (r : Bool) (ops : List Op) : Prop where
  rej : r = true ∨ ∀ b, Op.block b ∈ ops → b.reject = none ∨ b.reject = some .early
  timing : (∀ b, Op.block b ∈ ops → b.t1 = [] ∧ b.t2 = []) ∨
    ((∀ k, Op.fork k ∉ ops) ∧ ∀ b, Op.block b ∈ ops → b.reject ≠ some .late)

theorem OpsOk.tail {r : Bool} {op : Op} {ops : List Op} (h : OpsOk r (op :: ops)) : OpsOk r ops :=
  ⟨h.rej.imp id (fun x b hb => x b (List.mem_cons_of_mem _ hb)),
   h.timing.imp (fun x b hb => x b (List.mem_cons_of_mem _ hb))
    (fun x => ⟨fun k hk => x.1 k (List.mem_cons_of_mem _ hk),
      fun b hb => x.2 b (List.mem_cons_of_mem _ hb)⟩)⟩

theorem finishAll_inv {n : Node V H} (hn : NInv W occ n) (ok : W.Ok occ) (is : List Nat) :
    NInv W occ { n with cache := (finishAll W n.cache n.tasks is).1, tasks := (finishAll W n.cache n.tasks is).2 } ∧
    (LinInv n → LinInv { n with cache := (finishAll W n.cache n.tasks is).1, tasks := (finishAll W n.cache n.tasks is).2 }) := by
  have hl := finishAll_last (W := W) n.cache n.tasks is
  refine ⟨⟨⟨?_, ?_, hn.here.io, hn.here.pe⟩, ?_, hn.snaps⟩, ?_⟩
  · exact hn.here.core.finishAll_hash n.tasks is hn.tasks ok.inj (hn.here.io _) hn.here.hash
  · dsimp only
    rw [hl.1, hl.2.1]
    exact hn.here.hash
  · exact fun t hm => hn.tasks t (finishAll_sub _ _ _ t hm)
  · intro h t hm
    have := h t (finishAll_sub _ _ _ t hm)
    refine ⟨this.1, ?_⟩
    dsimp only
    rw [hl.2.1]
    exact this.2

theorem run_tickets (E : Nat) (r : Bool) (ok : W.Ok occ) (ops : List Op) : ∀ (n : Node V H),
    NInv W occ n → OpsOk r ops →
    ((∃ b, Op.block b ∈ ops ∧ ¬ (b.t1 = [] ∧ b.t2 = [])) → LinInv n) →
    (∀ b, Op.block b ∈ ops → ∀ s, b.designate = some s → ∀ p, occ (nullify s p)) →
    QuietStart E (run W E r n ops).2 →
    ∀ e ∈ (run W E r n ops).2, ∀ v, e.out.tickets = some v → v = W.gen (pendingOf E e.pre e.block) := by
  induction ops with
  | nil => intro n _ _ _ _ _ e he; cases he
  | cons op ops ih =>
    intro n hn hop hlin hd hq e he
    have hd' : ∀ b, Op.block b ∈ ops → ∀ s, b.designate = some s → ∀ p, occ (nullify s p) :=
      fun b hb => hd b (List.mem_cons_of_mem _ hb)
    cases op with
    | block b =>
      simp only [run] at he hq
      have hmem : Op.block b ∈ Op.block b :: ops := List.mem_cons_self ..
      have hb : BlockOk W occ E r n b := by
        refine ⟨hd b hmem, ?_, hop.rej.imp id (fun x => x b hmem)⟩
        intro hne
        refine hq _ (List.mem_cons_self ..) ?_
        simpa [newEpoch] using hne
      have hf : (b.t1 = [] ∧ b.t2 = []) ∨ (LinInv n ∧ b.reject ≠ some .late) := by
        rcases hop.timing with h | h
        · exact Or.inl (h b hmem)
        · by_cases hc : b.t1 = [] ∧ b.t2 = []
          · exact Or.inl hc
          · exact Or.inr ⟨hlin ⟨b, hmem, hc⟩, h.2 b hmem⟩
      have hs := runBlock_inv E r n b hn ok hb hf
      rcases List.mem_cons.1 he with he | he
      · subst he
        exact hs.2.2
      · refine ih _ hs.1 hop.tail ?_ hd' (fun e he => hq e (List.mem_cons_of_mem _ he)) e he
        rintro ⟨b', hb', hne⟩
        rcases hop.timing with h | h
        · exact absurd (h b' (List.mem_cons_of_mem _ hb')) hne
        · exact hs.2.1 (hlin ⟨b', List.mem_cons_of_mem _ hb', hne⟩) (h.2 b hmem)
    | tasks is =>
      simp only [run] at he hq
      have hs := finishAll_inv hn ok is
      refine ih { n with cache := _, tasks := _ } hs.1 hop.tail ?_ hd' hq e he
      rintro ⟨b', hb', hne⟩
      exact hs.2 (hlin ⟨b', List.mem_cons_of_mem _ hb', hne⟩)
    | fork k =>
      have hno : ¬ ∃ b, Op.block b ∈ ops ∧ ¬ (b.t1 = [] ∧ b.t2 = []) := by
        rintro ⟨b', hb', hne⟩
        rcases hop.timing with h | h
        · exact hne (h b' (List.mem_cons_of_mem _ hb'))
        · exact h.1 k (List.mem_cons_self ..)
      simp only [run] at he hq
      split at he
      · rename_i hk
        rw [hk] at hq
        exact ih n hn hop.tail (fun h => absurd h hno) hd' hq e he
      · rename_i s hk
        rw [hk] at hq
        exact ih { n with cache := s.1, chain := s.2 }
          ⟨hn.snaps s (List.mem_of_getElem? hk), hn.tasks, hn.snaps⟩ hop.tail (fun h => absurd h hno)
          hd' hq e he

/-- A node that starts. -/
theorem start_inv (h0 : H) (ch : Chain) (io : ∀ p, occ (nullify ch.staging p)) (pe : occ ch.pending) :
    NInv W occ (start h0 ch : Node V H) ∧ LinInv (start h0 ch : Node V H) := by
  refine ⟨⟨⟨⟨⟨ctxOk_none, ctxOk_none⟩, Nat.zero_le _, ?_, ?_⟩, Or.inr rfl, io, pe⟩, ?_, ?_⟩, ?_⟩
  · intro x h; cases h
  · intro x h; cases h
  · intro t h; cases h
  · intro s h; cases h
  · intro t h; cases h

end Fastroll.Ring
