import Verif.Ring.Spec
/-!
# Lemmas on the ring cache
-/
namespace Fastroll.Ring
open Fastroll.Ring.Spec

/-! ## Nulling keys -/

theorem nullify_nullify (s : List VKey) (p q : List Nat) :
    nullify (nullify s p) q = nullify s (p ++ q) := by
  induction s with
  | nil => rfl
  | cons k ks ih =>
    simp only [nullify, ih, List.cons.injEq, and_true, List.contains_iff_mem, List.mem_append]
    by_cases hp : k.ed ∈ p
    · simp only [if_pos hp, hp, true_or, if_true]
      split <;> rfl
    · simp only [hp, false_or, if_false]

/-- A set without keys punished by more is a set without keys punished by less. -/
theorem clean_mono (s : List VKey) (p q : List Nat) (h : nullify s (p ++ q) = s) :
    nullify s p = s := by
  induction s with
  | nil => rfl
  | cons k ks ih =>
    simp only [nullify, List.cons.injEq, List.contains_iff_mem, List.mem_append] at h ⊢
    refine ⟨?_, ih h.2⟩
    by_cases hp : k.ed ∈ p
    · have := h.1
      rw [if_pos (Or.inl hp)] at this
      rw [if_pos hp]
      exact this
    · rw [if_neg hp]

theorem nullify_of_not_any (s : List VKey) (p : List Nat) (h : anyPunished s p = false) :
    nullify s p = s := by
  induction s with
  | nil => rfl
  | cons k ks ih =>
    simp only [anyPunished, List.any_cons, Bool.or_eq_false_iff] at h
    simp only [nullify, List.cons.injEq]
    refine ⟨?_, ih h.2⟩
    rw [if_neg (by rw [h.1]; exact Bool.false_ne_true)]

theorem effective_nullify (s : List VKey) (p : List Nat) : Effective s p (nullify s p) := by
  induction s with
  | nil => exact ⟨rfl, fun i k h => by simp at h⟩
  | cons x xs ih =>
    refine ⟨by simp [nullify, ih.1], ?_⟩
    intro i k h
    cases i with
    | zero =>
      simp only [List.getElem?_cons_zero, Option.some.injEq] at h
      subst h
      simp only [nullify, List.getElem?_cons_zero, List.contains_iff_mem]
      by_cases hp : x.ed ∈ p
      · exact Or.inl ⟨hp, by rw [if_pos hp]⟩
      · exact Or.inr ⟨hp, by rw [if_neg hp]⟩
    | succ i =>
      simp only [List.getElem?_cons_succ] at h
      simp only [nullify, List.getElem?_cons_succ]
      exact ih.2 i k h

theorem effective_unique (s : List VKey) (p : List Nat) (a b : List VKey) (ha : Effective s p a)
    (hb : Effective s p b) : a = b := by
  apply List.ext_getElem?
  intro i
  rcases Nat.lt_or_ge i s.length with h | h
  · have hk := List.getElem?_eq_getElem h
    rcases ha.2 i _ hk with ⟨h1, e1⟩ | ⟨h1, e1⟩ <;> rcases hb.2 i _ hk with ⟨h2, e2⟩ | ⟨h2, e2⟩
    · rw [e1, e2]
    · exact absurd h1 h2
    · exact absurd h2 h1
    · rw [e1, e2]
  · rw [List.getElem?_eq_none (by rw [ha.1]; exact h), List.getElem?_eq_none (by rw [hb.1]; exact h)]

theorem effective_iff (s : List VKey) (p : List Nat) (a : List VKey) :
    Effective s p a ↔ a = nullify s p :=
  ⟨fun h => effective_unique s p _ _ h (effective_nullify s p), fun h => h ▸ effective_nullify s p⟩

/-! ## Verifiers are those of the sets cached with them -/

variable {V H : Type} [DecidableEq H] {W : World V H}

def CtxOk (W : World V H) (x : Option (Ctx V)) : Prop := ∀ y, x = some y → y.verifier = W.gen y.set

/-- Every cached verifier was generated from the set cached with it. -/
def Coherent (W : World V H) (c : Cache V H) : Prop := CtxOk W c.curr ∧ CtxOk W c.staging

theorem ctxOk_none : CtxOk W none := fun y h => by cases h

theorem ctxOk_some (a : Nat) (s : List VKey) : CtxOk W (some ⟨a, s, W.gen s⟩) := by
  intro y h
  cases h
  rfl

theorem coherent_put {c : Cache V H} (h : Coherent W c) (a : Nat) (s : List VKey) :
    Coherent W (putStaging c ⟨a, s, W.gen s⟩) := by
  unfold putStaging
  split
  · split
    · exact h
    · exact ⟨h.1, ctxOk_some a s⟩
  · exact ⟨h.1, ctxOk_some a s⟩

theorem coherent_finish {c : Cache V H} (h : Coherent W c) (t : Task H) : Coherent W (finish W c t) := by
  unfold finish
  split
  · exact h
  · split
    · exact h
    · exact coherent_put h _ _

theorem coherent_finishAll {c : Cache V H} (h : Coherent W c) (ts : List (Task H)) (is : List Nat) :
    Coherent W (finishAll W c ts is).1 := by
  induction is generalizing c ts with
  | nil => exact h
  | cons i is ih =>
    simp only [finishAll]
    split
    · exact ih h _
    · exact ih (coherent_finish h _) _

theorem coherent_nullify {c : Cache V H} (h : Coherent W c) (off : List Nat) :
    Coherent W (nullifyStaging W c off) := by
  unfold nullifyStaging
  split
  · exact h
  · rename_i x hx
    dsimp only
    split
    · exact ⟨h.1, ctxOk_some _ _⟩
    · rename_i hn
      refine ⟨h.1, ?_⟩
      intro y hy
      cases hy
      dsimp only
      rw [nullify_of_not_any _ _ (by simpa using hn)]
      exact h.2 x hx

theorem coherent_getStaging {c : Cache V H} (h : Coherent W c) (slot : Nat) (s : List VKey) :
    Coherent W (getStaging W c slot s).1 := by
  unfold getStaging
  split
  · exact h
  · exact coherent_put h _ _

theorem coherent_getCurr {c : Cache V H} (h : Coherent W c) (slot : Nat) (s : List VKey) :
    Coherent W (getCurr W c slot s).1 := by
  unfold getCurr
  split
  · exact h
  · exact ⟨ctxOk_some _ _, h.2⟩

theorem coherent_before {c : Cache V H} (h : Coherent W c) (ts : List (Task H)) (e : Bool) (b : Block) :
    Coherent W (beforeDisputes W ⟨c, ts⟩ e b).cache := by
  unfold beforeDisputes Mid.run
  dsimp only
  apply coherent_finishAll
  have h1 := coherent_finishAll (coherent_nullify h b.offenders) ts b.t1
  split
  · exact ⟨h1.2, h1.2⟩
  · exact h1

theorem coherent_after {m : Mid V H} (h : Coherent W m.cache) (s : List VKey) (p : List Nat) (b : Block) :
    Coherent W (afterDisputes W m s p b).cache := by
  unfold afterDisputes Mid.run
  dsimp only
  apply coherent_finishAll
  exact h

theorem coherent_epoch {m : Mid V H} (h : Coherent W m.cache) (e : Bool) (s : List VKey) (b : Block) :
    Coherent W (epochStep W m e s b).1.cache := by
  unfold epochStep Mid.run
  split
  · exact coherent_finishAll (coherent_getStaging h _ _) _ _
  · exact coherent_finishAll h _ _

theorem coherent_ticket {m : Mid V H} (h : Coherent W m.cache) (s : List VKey) (b : Block) :
    Coherent W (ticketStep W m s b).1.cache := by
  unfold ticketStep Mid.run
  split
  · exact coherent_finishAll (coherent_getCurr h _ _) _ _
  · exact coherent_finishAll h _ _

theorem coherent_designate {m : Mid V H} (h : Coherent W m.cache) (p : List Nat) (b : Block) :
    Coherent W (designateStep W m p b).cache := by
  unfold designateStep
  split
  · exact h
  · exact h

/-- Background tasks do not touch the context of the last staging set. -/
theorem put_last (c : Cache V H) (x : Ctx V) :
    (putStaging c x).lastHash = c.lastHash ∧ (putStaging c x).lastSlot = c.lastSlot ∧
      (putStaging c x).curr = c.curr := by
  unfold putStaging
  split
  · split <;> exact ⟨rfl, rfl, rfl⟩
  · exact ⟨rfl, rfl, rfl⟩

theorem finish_last (c : Cache V H) (t : Task H) :
    (finish W c t).lastHash = c.lastHash ∧ (finish W c t).lastSlot = c.lastSlot ∧
      (finish W c t).curr = c.curr := by
  unfold finish
  split
  · exact ⟨rfl, rfl, rfl⟩
  · split
    · exact ⟨rfl, rfl, rfl⟩
    · exact put_last _ _

theorem finishAll_last (c : Cache V H) (ts : List (Task H)) (is : List Nat) :
    (finishAll W c ts is).1.lastHash = c.lastHash ∧ (finishAll W c ts is).1.lastSlot = c.lastSlot ∧
      (finishAll W c ts is).1.curr = c.curr := by
  induction is generalizing c ts with
  | nil => exact ⟨rfl, rfl, rfl⟩
  | cons i is ih =>
    simp only [finishAll]
    split
    · exact ih _ _
    · have h := ih (finish W c ‹_›) (ts.eraseIdx i)
      have h' := finish_last (W := W) c ‹_›
      exact ⟨h.1.trans h'.1, h.2.1.trans h'.2.1, h.2.2.trans h'.2.2⟩

theorem finishAll_sub (c : Cache V H) (ts : List (Task H)) (is : List Nat) :
    ∀ t ∈ (finishAll W c ts is).2, t ∈ ts := by
  induction is generalizing c ts with
  | nil => exact fun t h => h
  | cons i is ih =>
    intro t h
    simp only [finishAll] at h
    split at h
    · exact ih _ _ t h
    · exact List.mem_of_mem_eraseIdx (ih _ _ t h)

/-- The verifier for an epoch's ring root, when the recorded hash is that of the requested set. -/
theorem getStaging_ok {c : Cache V H} (h : Coherent W c) (slot : Nat) (s : List VKey)
    (hh : c.lastHash = W.hash s) :
    (getStaging W c slot s).2 = W.gen s ∨
      ∃ a, a ≠ s ∧ W.hash a = W.hash s ∧ (getStaging W c slot s).2 = W.gen a := by
  unfold getStaging
  split
  · rename_i v hv
    unfold stagingHit at hv
    split at hv
    · cases hv
    · rename_i x hx
      split at hv
      · rename_i hc
        cases hv
        have e := h.2 x hx
        by_cases hs : x.set = s
        · left
          show x.verifier = _
          rw [e, hs]
        · exact Or.inr ⟨x.set, hs, by rw [← hc.2, hh], e⟩
      · cases hv
  · exact Or.inl rfl

/-! ## Nodes -/

def NodeOk (W : World V H) (n : Node V H) : Prop :=
  Coherent W n.cache ∧ ∀ s ∈ n.snaps, Coherent W s.1

/-- The state of the cache when the epoch transition asks for its ring. -/
theorem after_hash (m : Mid V H) (s : List VKey) (p : List Nat) (b : Block) :
    (afterDisputes W m s p b).cache.lastHash = W.hash (nullify s p) := by
  unfold afterDisputes Mid.run
  exact (finishAll_last _ _ _).1

theorem runBlock_root (E : Nat) (r : Bool) (n : Node V H) (b : Block) (hn : NodeOk W n) :
    NodeOk W (runBlock W E r n b).1 ∧
    ∀ v, (runBlock W E r n b).2.root = some v →
      v = W.gen (nullify n.chain.staging (n.chain.punish ++ b.offenders)) ∨
      ∃ a, a ≠ nullify n.chain.staging (n.chain.punish ++ b.offenders) ∧
        W.hash a = W.hash (nullify n.chain.staging (n.chain.punish ++ b.offenders)) ∧ v = W.gen a := by
  unfold runBlock
  by_cases h0 : b.slot ≤ n.chain.slot ∨ b.reject = some .early
  · rw [if_pos h0]
    exact ⟨hn, fun v h => by cases h⟩
  · rw [if_neg h0]
    dsimp only
    have rej : ∀ m : Mid V H, Coherent W m.cache → NodeOk W (rejected n r m) := by
      intro m hm
      refine ⟨?_, hn.2⟩
      unfold rejected
      dsimp only
      split
      · exact hn.1
      · exact hm
    have c1 := coherent_before hn.1 n.tasks (newEpoch E n.chain.slot b.slot) b
    generalize beforeDisputes W ⟨n.cache, n.tasks⟩ (newEpoch E n.chain.slot b.slot) b = m1 at c1 ⊢
    by_cases h1 : b.reject = some .disputes
    · rw [if_pos h1]
      exact ⟨rej _ c1, fun v h => by cases h⟩
    · rw [if_neg h1]
      have c2 := coherent_after c1 n.chain.staging (n.chain.punish ++ b.offenders) b
      have hh := after_hash (W := W) m1 n.chain.staging (n.chain.punish ++ b.offenders) b
      generalize afterDisputes W m1 n.chain.staging (n.chain.punish ++ b.offenders) b = m2 at c2 hh ⊢
      have c3 := coherent_epoch c2 (newEpoch E n.chain.slot b.slot)
        (nullify n.chain.staging (n.chain.punish ++ b.offenders)) b
      have hroot : ∀ v, (epochStep W m2 (newEpoch E n.chain.slot b.slot)
          (nullify n.chain.staging (n.chain.punish ++ b.offenders)) b).2 = some v →
          v = W.gen (nullify n.chain.staging (n.chain.punish ++ b.offenders)) ∨
          ∃ a, a ≠ nullify n.chain.staging (n.chain.punish ++ b.offenders) ∧
            W.hash a = W.hash (nullify n.chain.staging (n.chain.punish ++ b.offenders)) ∧
            v = W.gen a := by
        intro v hv
        unfold epochStep at hv
        split at hv
        · injection hv with hv
          have := getStaging_ok c2 b.slot _ hh
          rw [← hv]
          exact this
        · cases hv
      generalize epochStep W m2 (newEpoch E n.chain.slot b.slot)
        (nullify n.chain.staging (n.chain.punish ++ b.offenders)) b = q3 at c3 hroot ⊢
      generalize (if newEpoch E n.chain.slot b.slot then
        nullify n.chain.staging (n.chain.punish ++ b.offenders) else n.chain.pending) = pend
      have c4 := coherent_ticket c3 pend b
      generalize ticketStep W q3.1 pend b = q4 at c4 ⊢
      by_cases h2 : b.reject = some .tickets
      · rw [if_pos h2]
        exact ⟨rej _ c4, hroot⟩
      · rw [if_neg h2]
        have c5 := coherent_designate c4 (n.chain.punish ++ b.offenders) b
        generalize designateStep W q4.1 (n.chain.punish ++ b.offenders) b = m5 at c5 ⊢
        by_cases h3 : b.reject = some .late
        · rw [if_pos h3]
          exact ⟨rej _ c5, hroot⟩
        · rw [if_neg h3]
          refine ⟨⟨c5, ?_⟩, hroot⟩
          intro s hs
          rcases List.mem_append.1 hs with hs | hs
          · exact hn.2 s hs
          · rw [List.mem_singleton.1 hs]
            exact c5

theorem run_root (E : Nat) (r : Bool) (ops : List Op) : ∀ (n : Node V H), NodeOk W n →
    ∀ e ∈ (run W E r n ops).2, ∀ v, e.out.root = some v →
      v = W.gen (nullify e.pre.staging (e.pre.punish ++ e.block.offenders)) ∨
      ∃ a, a ≠ nullify e.pre.staging (e.pre.punish ++ e.block.offenders) ∧
        W.hash a = W.hash (nullify e.pre.staging (e.pre.punish ++ e.block.offenders)) ∧ v = W.gen a := by
  induction ops with
  | nil => intro n _ e he; cases he
  | cons op ops ih =>
    intro n hn e he
    cases op with
    | block b =>
      have hb := runBlock_root E r n b hn
      simp only [run] at he
      rcases List.mem_cons.1 he with he | he
      · subst he
        exact hb.2
      · exact ih _ hb.1 e he
    | tasks is =>
      simp only [run] at he
      exact ih { n with cache := _, tasks := _ } ⟨coherent_finishAll hn.1 _ _, hn.2⟩ e he
    | fork k =>
      simp only [run] at he
      split at he
      · exact ih n hn e he
      · rename_i s hs
        exact ih { n with cache := s.1, chain := s.2 } ⟨hn.2 s (List.mem_of_getElem? hs), hn.2⟩ e he

end Fastroll.Ring
