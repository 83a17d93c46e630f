import Verif.Ring.Lemmas
/-!
# The invariant behind the tickets' verifier
-/
namespace Fastroll.Ring
open Fastroll.Ring.Spec

variable {V H : Type} [DecidableEq H] {W : World V H}

/-- What relates the cache to a staging set `io`, a punish set `ps` and a pending set `pe`; `bs` bounds the
slots of the staging entry and of the last designation, `bc` that of the current entry. -/
structure Core (W : World V H) (occ : List VKey → Prop) (bs bc : Nat) (io : List VKey) (ps : List Nat)
    (pe : List VKey) (c : Cache V H) : Prop where
  coh : Coherent W c
  last : c.lastSlot ≤ bs
  stg : ∀ x, c.staging = some x → x.insertedAt ≤ bs ∧ occ x.set ∧
    (c.lastSlot ≤ x.insertedAt → nullify x.set ps = nullify io ps) ∧
    (c.lastSlot < x.insertedAt → x.set = nullify io ps)
  cur : ∀ x, c.curr = some x → x.insertedAt ≤ bc ∧ occ x.set ∧
    (c.lastSlot < x.insertedAt → x.set = pe) ∧
    (c.lastSlot = x.insertedAt → nullify x.set ps = x.set → x.set = pe)

/-- What a task computes. -/
def Task.result (t : Task H) : List VKey := nullify t.set t.punish

structure TaskOk (W : World V H) (occ : List VKey → Prop) (t : Task H) : Prop where
  occurs : occ t.result
  expected : t.expected = W.hash t.result
  pos : 0 < t.slot

/-- A task fits the current staging set. -/
def Fits (io : List VKey) (ps : List Nat) (ls : Nat) (t : Task H) : Prop :=
  t.slot = ls → nullify t.result ps = nullify io ps

variable {occ : List VKey → Prop} {bs bc : Nat} {io pe : List VKey} {ps : List Nat} {c : Cache V H}

theorem nullify_idem (s : List VKey) (p : List Nat) : nullify (nullify s p) p = nullify s p := by
  rw [nullify_nullify]
  induction s with
  | nil => rfl
  | cons k ks ih => simp only [nullify, ih, List.contains_iff_mem, List.mem_append, or_self]

theorem Core.put_same (h : Core W occ bs bc io ps pe c) (a : Nat) (s : List VKey) (ha : a ≤ bs)
    (ho : occ s) (h1 : c.lastSlot ≤ a → nullify s ps = nullify io ps)
    (h2 : c.lastSlot < a → s = nullify io ps) :
    Core W occ bs bc io ps pe (putStaging c ⟨a, s, W.gen s⟩) := by
  have hc := coherent_put h.coh a s
  unfold putStaging at hc ⊢
  have key : Core W occ bs bc io ps pe { c with staging := some ⟨a, s, W.gen s⟩ } := by
    refine ⟨⟨h.coh.1, ctxOk_some a s⟩, h.last, ?_, h.cur⟩
    intro x hx
    cases hx
    exact ⟨ha, ho, h1, h2⟩
  split
  · split
    · exact h
    · exact key
  · exact key

theorem Core.finish_fits (h : Core W occ bs bc io ps pe c) (t : Task H) (ht : TaskOk W occ t)
    (hf : c.lastSlot = t.slot → c.lastHash = t.expected → nullify t.result ps = nullify io ps) :
    Core W occ bs bc io ps pe (finish W c t) := by
  unfold finish
  split
  · exact h
  · rename_i e1
    split
    · exact h
    · rename_i e2
      have e1 : c.lastSlot = t.slot := Decidable.not_not.1 e1
      have e2 : c.lastHash = t.expected := Decidable.not_not.1 e2
      refine h.put_same _ _ (by have := h.last; omega) ht.occurs (fun _ => hf e1 e2) ?_
      intro hlt
      omega

theorem Core.finishAll_fits (is : List Nat) : ∀ (c : Cache V H) (ts : List (Task H)),
    Core W occ bs bc io ps pe c → (∀ t ∈ ts, TaskOk W occ t) →
    (∀ t ∈ ts, c.lastSlot = t.slot → c.lastHash = t.expected → nullify t.result ps = nullify io ps) →
    Core W occ bs bc io ps pe (finishAll W c ts is).1 := by
  induction is with
  | nil => intro c ts h _ _; exact h
  | cons i is ih =>
    intro c ts h ht hf
    simp only [finishAll]
    split
    · exact ih c ts h ht hf
    · rename_i t hi
      have hm := List.mem_of_getElem? hi
      refine ih _ _ (h.finish_fits t (ht t hm) (hf t hm)) (fun t' h' => ht t' (List.mem_of_mem_eraseIdx h')) ?_
      intro t' h'
      rw [(finish_last c t).1, (finish_last c t).2.1]
      exact hf t' (List.mem_of_mem_eraseIdx h')

/-- Tasks that complete while the recorded hash is that of the effective staging set. -/
theorem Core.finishAll_hash (h : Core W occ bs bc io ps pe c) (ts : List (Task H)) (is : List Nat)
    (ht : ∀ t ∈ ts, TaskOk W occ t)
    (inj : ∀ a a', occ a → occ a' → W.hash a = W.hash a' → a = a') (hio : occ (nullify io ps))
    (hh : c.lastHash = W.hash (nullify io ps) ∨ c.lastSlot = 0) :
    Core W occ bs bc io ps pe (finishAll W c ts is).1 := by
  refine Core.finishAll_fits is c ts h ht ?_
  intro t hm e1 e2
  rcases hh with hh | hh
  · have : t.result = nullify io ps :=
      inj _ _ (ht t hm).occurs hio (by rw [← (ht t hm).expected, ← e2, hh])
    rw [this, nullify_idem]
  · have := (ht t hm).pos
    omega

/-- The first step of a block: new offenders. -/
theorem Core.nullifyStaging (h : Core W occ bs bc io ps pe c) (off : List Nat)
    (hocc : ∀ a p, occ a → occ (nullify a p)) :
    Core W occ bs bc io (ps ++ off) pe (nullifyStaging W c off) := by
  have hc := coherent_nullify h.coh off
  have hcur : ∀ x, c.curr = some x → x.insertedAt ≤ bc ∧ occ x.set ∧
      (c.lastSlot < x.insertedAt → x.set = pe) ∧
      (c.lastSlot = x.insertedAt → nullify x.set (ps ++ off) = x.set → x.set = pe) := by
    intro x hx
    have := h.cur x hx
    exact ⟨this.1, this.2.1, this.2.2.1, fun e1 e2 => this.2.2.2 e1 (clean_mono _ _ _ e2)⟩
  unfold Ring.nullifyStaging at hc ⊢
  split at hc
  · rename_i hn
    refine ⟨h.coh, h.last, ?_, hcur⟩
    intro x hx
    rw [hn] at hx
    cases hx
  · rename_i x hx
    dsimp only at hc ⊢
    have hs := h.stg x hx
    have h1 : c.lastSlot ≤ x.insertedAt →
        nullify (nullify x.set off) (ps ++ off) = nullify io (ps ++ off) := by
      intro hle
      have e := hs.2.2.1 hle
      have : nullify (nullify x.set off) (ps ++ off) = nullify x.set (ps ++ off) := by
        rw [nullify_nullify]
        have : ∀ (s : List VKey), nullify s (off ++ (ps ++ off)) = nullify s (ps ++ off) := by
          intro s
          induction s with
          | nil => rfl
          | cons k ks ih =>
            simp only [nullify, ih, List.contains_iff_mem, List.mem_append, List.cons.injEq, and_true]
            by_cases a : k.ed ∈ off <;> by_cases b : k.ed ∈ ps <;> simp [a, b]
        exact this _
      rw [this, ← nullify_nullify, e, nullify_nullify]
    have h2 : c.lastSlot < x.insertedAt → nullify x.set off = nullify io (ps ++ off) := by
      intro hlt
      rw [hs.2.2.2 hlt, nullify_nullify]
    split
    · refine ⟨⟨h.coh.1, ctxOk_some _ _⟩, h.last, ?_, hcur⟩
      intro y hy
      cases hy
      exact ⟨hs.1, hocc _ _ hs.2.1, h1, h2⟩
    · rename_i hn
      rw [if_neg hn] at hc
      refine ⟨hc, h.last, ?_, hcur⟩
      intro y hy
      cases hy
      exact ⟨hs.1, hocc _ _ hs.2.1, h1, h2⟩

theorem Core.rotate (h : Core W occ bs bc io ps pe c) (hb : bs ≤ bc) :
    Core W occ bs bc io ps (nullify io ps) (rotate c) := by
  refine ⟨⟨h.coh.2, h.coh.2⟩, h.last, h.stg, ?_⟩
  intro x hx
  have hs := h.stg x hx
  refine ⟨Nat.le_trans hs.1 hb, hs.2.1, hs.2.2.2, ?_⟩
  intro e1 e2
  have := hs.2.2.1 (Nat.le_of_eq e1)
  rw [e2] at this
  exact this

theorem Core.setHash (h : Core W occ bs bc io ps pe c) (x : H) :
    Core W occ bs bc io ps pe { c with lastHash := x } := ⟨h.coh, h.last, h.stg, h.cur⟩

theorem Core.mono (h : Core W occ bs bc io ps pe c) {bs' bc' : Nat} (h1 : bs ≤ bs') (h2 : bc ≤ bc') :
    Core W occ bs' bc' io ps pe c := by
  refine ⟨h.coh, Nat.le_trans h.last h1, ?_, ?_⟩
  · intro x hx
    have := h.stg x hx
    exact ⟨Nat.le_trans this.1 h1, this.2⟩
  · intro x hx
    have := h.cur x hx
    exact ⟨Nat.le_trans this.1 h2, this.2⟩

theorem Core.getStaging (h : Core W occ bs bc io ps pe c) (slot : Nat) (hs : slot ≤ bs)
    (ho : occ (nullify io ps)) :
    Core W occ bs bc io ps pe (getStaging W c slot (nullify io ps)).1 := by
  unfold Ring.getStaging
  split
  · exact h
  · exact h.put_same _ _ hs ho (fun _ => nullify_idem io ps) (fun _ => rfl)

theorem Core.getCurr (h : Core W occ bs bc io ps pe c) (slot : Nat) (hs : slot ≤ bc) (ho : occ pe) :
    Core W occ bs bc io ps pe (getCurr W c slot pe).1 := by
  unfold Ring.getCurr
  split
  · exact h
  · refine ⟨⟨ctxOk_some _ _, h.coh.2⟩, h.last, h.stg, ?_⟩
    intro x hx
    cases hx
    exact ⟨hs, ho, fun _ => rfl, fun _ _ => rfl⟩

/-- The verifier the tickets are checked with. -/
theorem Core.getCurr_ok (h : Core W occ bs bc io ps pe c) (slot : Nat)
    (hh : c.lastHash = W.hash (nullify io ps)) (ho : occ (nullify io ps))
    (inj : ∀ a a', occ a → occ a' → W.hash a = W.hash a' → a = a') :
    (Ring.getCurr W c slot pe).2 = W.gen pe := by
  unfold Ring.getCurr
  split
  · rename_i v hv
    unfold currHit at hv
    split at hv
    · cases hv
    · rename_i x hx
      have hx' := h.cur x hx
      have hcoh := h.coh.1 x hx
      split at hv
      · rename_i hlt
        cases hv
        show x.verifier = _
        rw [hcoh, hx'.2.2.1 hlt]
      · split at hv
        · rename_i hc
          cases hv
          show x.verifier = _
          have e : x.set = nullify io ps := inj _ _ hx'.2.1 ho (by rw [← hc.2, hh])
          have hcl : nullify x.set ps = x.set := by rw [e, nullify_idem]
          rw [hcoh, hx'.2.2.2 hc.1 hcl]
        · cases hv
  · rfl

/-- A designation in a block that did not begin an epoch. -/
theorem Core.designate (h : Core W occ bs bc io ps pe c) (slot : Nat) (hb : bs < slot) (hc : bc ≤ slot)
    (io' : List VKey) (x : H) :
    Core W occ slot slot io' ps pe { c with lastSlot := slot, lastHash := x } := by
  refine ⟨h.coh, Nat.le_refl _, ?_, ?_⟩
  · intro y hy
    have := h.stg y hy
    dsimp only
    exact ⟨by omega, this.2.1, fun hle => by omega, fun hlt => by omega⟩
  · intro y hy
    have hy' := h.cur y hy
    have hl := h.last
    dsimp only
    refine ⟨by omega, hy'.2.1, fun hlt => by omega, fun e _ => hy'.2.2.1 (by omega)⟩

end Fastroll.Ring
