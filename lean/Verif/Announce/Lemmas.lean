import Verif.Announce.Spec
/-
Lemmas for the properties of announcements.
-/
namespace Fastroll.Announce

theorem countP_eraseIdx {α : Type} (P : α → Bool) : ∀ (l : List α) (i : Nat) (t : α), l[i]? = some t →
    (l.eraseIdx i).countP P + (if P t then 1 else 0) = l.countP P
  | [], i, t, h => by simp at h
  | a :: l, 0, t, h => by
    simp at h; subst h; simp [List.countP_cons]
  | a :: l, i + 1, t, h => by
    have := countP_eraseIdx P l i t (by simpa using h)
    simp only [List.eraseIdx_cons_succ, List.countP_cons]; omega

theorem countP_setIdx {α : Type} (P : α → Bool) : ∀ (l : List α) (i : Nat) (t u : α), l[i]? = some t →
    (l.set i u).countP P + (if P t then 1 else 0) = l.countP P + (if P u then 1 else 0)
  | [], i, t, u, h => by simp at h
  | a :: l, 0, t, u, h => by
    simp at h; subst h; simp only [List.set_cons_zero, List.countP_cons]; omega
  | a :: l, i + 1, t, u, h => by
    have := countP_setIdx P l i t u (by simpa using h)
    simp only [List.set_cons_succ, List.countP_cons]; omega

theorem mem_eraseIdx {α : Type} {l : List α} {i : Nat} {x : α} (h : x ∈ l.eraseIdx i) : x ∈ l :=
  List.mem_of_mem_eraseIdx h

theorem mem_set_cases {α : Type} {l : List α} {i : Nat} {x u : α} (h : x ∈ l.set i u) : x ∈ l ∨ x = u :=
  List.mem_or_eq_of_mem_set h

section
variable {σ : Type}

/-! ### What a step leaves alone -/

theorem retire_fields (s : Node σ) (p : Nat) :
    (retire s p).links = s.links ∧ (retire s p).best = s.best ∧ (retire s p).roots = s.roots ∧
    (retire s p).committed = s.committed ∧ (retire s p).tasks = s.tasks ∧ (retire s p).done = s.done ∧
    (retire s p).failed = s.failed := by
  unfold retire; split <;> simp

theorem receive_fields (W : World σ) (s : Node σ) (b : Hdr) :
    (receive W s b).links = s.links ∧ (receive W s b).sent = s.sent ∧ (receive W s b).tasks = s.tasks ∧
    (receive W s b).done = s.done ∧ (receive W s b).failed = s.failed := by
  unfold receive; repeat' split
  all_goals simp

theorem receive_rejected (W : World σ) (s : Node σ) (b : Hdr) (h : s.roots s.best.hash = none) :
    receive W s b = { s with visible := s.committed } := by
  unfold receive
  split
  · rename_i hk
    simp only [headerOk, Bool.and_eq_true, decide_eq_true_eq] at hk
    rw [hk.1.2, h] at hk
    exact absurd hk.2 (by simp)
  · rfl

/-! ### Every peer whose stream stays up is told of every block, once -/

/-- The account of a peer. -/
def Told (p h base : Nat) (s : Node σ) : Prop :=
  ∃ q, s.links p = .up true q ∧ (s.sent p ++ q).count h = base + owed s p h

theorem told_step (W : World σ) (p h base : Nat) (hp : p < W.peers) (s : Node σ) (e : Ev) (hl : e ≠ .lose p)
    (hs : e ≠ .store p) (H : Told p h base s) : Told p h base (step W s e) := by
  obtain ⟨q, hq, hc⟩ := H
  cases e with
  | slot a n =>
    refine ⟨q, hq, ?_⟩
    simp only [step, author, owed, List.countP_append, List.countP_singleton, Task.past] at hc ⊢
    simpa using hc
  | go i =>
    simp only [step]
    split
    · exact ⟨q, hq, hc⟩
    · rename_i t ht
      have hE := countP_eraseIdx (Task.past p h) s.tasks i t ht
      have hS := countP_setIdx (Task.past p h) s.tasks i t { t with pos := t.pos + 1 } ht
      unfold go
      split
      · rename_i hlt
        by_cases hpos : t.pos = p
        · have h1 : Task.past p h t = false := by simp [Task.past, hpos]
          have h2 : Task.past p h { t with pos := t.pos + 1 } = decide (t.hdr.hash = h) := by
            simp [Task.past, hpos]
          rw [h1, h2] at hS
          rw [hpos, hq]
          dsimp only
          split
          · exact ⟨q, hq, hc⟩
          · refine ⟨q ++ [t.hdr.hash], by simp [next, push, put, hpos], ?_⟩
            simp only [next, push, owed] at hc ⊢
            rw [← List.append_assoc, List.count_append, hc, List.count_singleton]
            simp only [Bool.false_eq_true, if_false, decide_eq_true_eq, beq_iff_eq, hpos] at hS ⊢
            omega
        · have h2 : Task.past p h { t with pos := t.pos + 1 } = Task.past p h t := by
            simp only [Task.past]; congr 1; simp only [decide_eq_decide]; omega
          rw [h2] at hS
          split
          · refine ⟨q, hq, ?_⟩
            simp only [next, owed] at hc ⊢; omega
          · refine ⟨q, hq, ?_⟩
            simp only [next, owed] at hc ⊢; omega
          · split
            · exact ⟨q, hq, hc⟩
            · refine ⟨q, by simp [next, push, put, Ne.symm hpos, hq], ?_⟩
              simp only [next, push, owed] at hc ⊢; omega
          · refine ⟨q, hq, ?_⟩
            simp only [fail, owed, List.countP_append, List.countP_singleton] at hc ⊢; omega
      · rename_i hge
        refine ⟨q, hq, ?_⟩
        have h1 : Task.past p h t = decide (t.hdr.hash = h) := by
          have : p < t.pos := by omega
          simp [Task.past, this]
        rw [h1] at hE
        simp only [finish, owed, List.countP_append, List.countP_singleton] at hc ⊢; omega
  | write r =>
    simp only [step]
    split
    · rename_i a q' hr
      by_cases hrp : p = r
      · subst hrp
        rw [hq] at hr
        injection hr with _ hr
        subst hr
        refine ⟨q', by simp [put], ?_⟩
        simp only [put, if_true, owed] at hc ⊢
        rw [← hc]; simp
      · exact ⟨q, by simp [put, hrp, hq], by simpa [put, hrp, owed] using hc⟩
    · exact ⟨q, hq, hc⟩
  | lose r =>
    have hr : p ≠ r := fun h => hl (by rw [h])
    simp only [step]
    split
    · exact ⟨q, by simp [put, hr, hq], hc⟩
    · exact ⟨q, hq, hc⟩
  | store r =>
    have hr : p ≠ r := fun h => hs (by rw [h])
    simp only [step]
    split
    · exact ⟨q, hq, hc⟩
    · refine ⟨q, by simp [put, hr, hq], ?_⟩
      have : (retire s r).sent p = s.sent p := by unfold retire; split <;> simp [put, hr]
      simpa [owed, this, retire_fields] using hc
  | attach r =>
    simp only [step]
    split
    · exact ⟨q, hq, hc⟩
    · by_cases hr : p = r
      · subst hr
        rw [hq]
        refine ⟨[], by simp [put], ?_⟩
        simp only [retire, hq, owed, put, if_true, List.append_nil] at hc ⊢
        exact hc
      · split
        · exact ⟨q, hq, hc⟩
        · refine ⟨q, by simp [put, hr, hq], ?_⟩
          have : (retire s r).sent p = s.sent p := by unfold retire; split <;> simp [put, hr]
          simpa [owed, this, retire_fields] using hc
  | arrive b =>
    have hf := receive_fields W s b
    refine ⟨q, by simp [step, hf, hq], ?_⟩
    simpa [step, owed, hf] using hc

theorem told_run (W : World σ) (p h base : Nat) (hp : p < W.peers) : ∀ (evs : List Ev) (s : Node σ),
    .lose p ∉ evs → .store p ∉ evs → Told p h base s → Told p h base (run W s evs)
  | [], _, _, _, H => H
  | e :: evs, s, hl, hs, H => by
    simp only [List.mem_cons, not_or] at hl hs
    exact told_run W p h base hp evs _ hl.2 hs.2 (told_step W p h base hp s e (Ne.symm hl.1) (Ne.symm hs.1) H)

/-! ### No announcement fails while no stream is lost -/

theorem healthy_step (W : World σ) (s : Node σ) (e : Ev) (he : ∀ p, e ≠ .lose p) (H : ∀ p, ¬ (s.links p).Dead) :
    (∀ p, ¬ ((step W s e).links p).Dead) ∧ (step W s e).failed = s.failed := by
  have hput : ∀ (f : Nat → Link) r l, (∀ p, ¬ (f p).Dead) → ¬ l.Dead → ∀ p, ¬ (put f r l p).Dead := by
    intro f r l hf hl p; unfold put; split
    · exact hl
    · exact hf p
  have hup : ∀ q, ¬ (Link.up true q).Dead := by rintro q ⟨q', h⟩; cases h
  have hbare : ¬ Link.bare.Dead := by rintro ⟨q', h⟩; cases h
  cases e with
  | slot a n => exact ⟨H, rfl⟩
  | go i =>
    simp only [step]
    split
    · exact ⟨H, rfl⟩
    · unfold go
      split
      · split
        · exact ⟨H, rfl⟩
        · exact ⟨H, rfl⟩
        · split
          · exact ⟨H, rfl⟩
          · exact ⟨hput _ _ _ H (hup _), rfl⟩
        · rename_i hd; exact absurd ⟨_, hd⟩ (H _)
      · exact ⟨H, rfl⟩
  | write r =>
    simp only [step]; split
    · exact ⟨hput _ _ _ H (hup _), rfl⟩
    · exact ⟨H, rfl⟩
  | lose r => exact absurd rfl (he r)
  | store r =>
    simp only [step]; split
    · exact ⟨H, rfl⟩
    · exact ⟨hput _ _ _ H hbare, (retire_fields s r).2.2.2.2.2.2⟩
  | attach r =>
    simp only [step]; split
    · exact ⟨H, rfl⟩
    · split
      · exact ⟨H, rfl⟩
      · exact ⟨hput _ _ _ H (hup _), (retire_fields s r).2.2.2.2.2.2⟩
  | arrive b =>
    have hf := receive_fields W s b
    simp only [step, hf]; exact ⟨H, trivial⟩

theorem healthy_run (W : World σ) : ∀ (evs : List Ev) (s : Node σ), (∀ p, .lose p ∉ evs) → (∀ p, ¬ (s.links p).Dead) →
    (∀ p, ¬ ((run W s evs).links p).Dead) ∧ (run W s evs).failed = s.failed
  | [], _, _, H => ⟨H, rfl⟩
  | e :: evs, s, hl, H => by
    obtain ⟨h1, h2⟩ := healthy_step W s e (fun p h => hl p (by simp [h])) H
    obtain ⟨h3, h4⟩ := healthy_run W evs _ (fun p h => hl p (by simp [h])) h1
    exact ⟨h3, h4.trans h2⟩

/-! ### A single announcement goes through -/

theorem go_zero (W : World σ) (s : Node σ) (t : Task) (ht : s.tasks = [t]) : step W s (.go 0) = go W s 0 t := by
  simp [step, ht]

/-- The node with the announcement at position `k`. -/
theorem sweep (W : World σ) (h : Hdr) : ∀ (n k : Nat) (s : Node σ), k + n = W.peers → s.tasks = [⟨h, k⟩] →
    (∀ p, k ≤ p → p < W.peers → (s.links p).Room W.cap) →
    run W s (List.replicate n (.go 0)) =
      { s with tasks := [⟨h, W.peers⟩]
               links := fun p => if k ≤ p ∧ p < W.peers then (s.links p).told h.hash else s.links p }
  | 0, k, s, hk, ht, _ => by
    have : k = W.peers := by omega
    subst this
    have e : (fun p => if W.peers ≤ p ∧ p < W.peers then (s.links p).told h.hash else s.links p) = s.links := by
      funext p; rw [if_neg (by omega)]
    rw [e]
    cases s; simp only at ht; subst ht; rfl
  | n + 1, k, s, hk, ht, hr => by
    have hlt : k < W.peers := by omega
    have hstep : step W s (.go 0) =
        { s with tasks := [⟨h, k + 1⟩], links := put s.links k ((s.links k).told h.hash) } := by
      rw [go_zero W s _ ht]
      have hid : put s.links k (s.links k) = s.links := by
        funext p; unfold put; split
        · rename_i e; rw [e]
        · rfl
      unfold go
      simp only [hlt, if_true]
      rcases hr k (Nat.le_refl _) hlt with e | e | ⟨q, e, hq⟩
      · rw [e]; simp only [Link.told]; rw [← e, hid]; simp [next, ht]
      · rw [e]; simp only [Link.told]; rw [← e, hid]; simp [next, ht]
      · rw [e]; simp only [Link.told, if_neg (Nat.not_le.mpr hq)]; simp [next, push, ht]
    show run W (step W s (.go 0)) (List.replicate n (.go 0)) = _
    rw [hstep, sweep W h n (k + 1) _ (by omega) rfl]
    · congr 1
      funext p
      by_cases e : p = k
      · subst e; simp only [put, if_true]; rw [if_neg (by omega), if_pos (by omega)]
      · simp only [put, e, if_false]
        by_cases h1 : k + 1 ≤ p ∧ p < W.peers
        · rw [if_pos h1, if_pos (by omega)]
        · rw [if_neg h1, if_neg (by omega)]
    · intro p h1 h2
      have e : p ≠ k := by omega
      simp only [put, e, if_false]
      exact hr p (by omega) h2

/-! ### A lost peer -/

/-- Nothing gets past a peer whose stream is broken. -/
def Blocked (p : Nat) (d : List Hdr) (s : Node σ) : Prop :=
  (s.links p).Dead ∧ (∀ t ∈ s.tasks, t.pos ≤ p) ∧ s.done = d

theorem blocked_step (W : World σ) (p : Nat) (hp : p < W.peers) (d : List Hdr) (s : Node σ) (e : Ev) (hs : e ≠ .store p)
    (ha : e ≠ .attach p) (H : Blocked p d s) : Blocked p d (step W s e) := by
  obtain ⟨⟨q, hq⟩, ht, hd⟩ := H
  have hput : ∀ r l, r ≠ p → (put s.links r l p).Dead := by
    intro r l hr; exact ⟨q, by simp [put, Ne.symm hr, hq]⟩
  cases e with
  | slot a n =>
    refine ⟨⟨q, hq⟩, ?_, hd⟩
    intro t h
    simp only [step, author, List.mem_append, List.mem_singleton] at h
    rcases h with h | h
    · exact ht t h
    · subst h; exact Nat.zero_le _
  | go i =>
    simp only [step]
    split
    · exact ⟨⟨q, hq⟩, ht, hd⟩
    · rename_i t hi
      have hm : t ∈ s.tasks := List.mem_of_getElem? hi
      have hle := ht t hm
      have hset : t.pos ≠ p → ∀ u ∈ s.tasks.set i { t with pos := t.pos + 1 }, u.pos ≤ p := by
        intro hne u hu
        rcases mem_set_cases hu with hu | hu
        · exact ht u hu
        · subst hu; show t.pos + 1 ≤ p; omega
      unfold go
      split
      · split
        · rename_i e
          exact ⟨⟨q, hq⟩, hset (fun h => by rw [h, hq] at e; cases e), hd⟩
        · rename_i e
          exact ⟨⟨q, hq⟩, hset (fun h => by rw [h, hq] at e; cases e), hd⟩
        · rename_i e
          split
          · exact ⟨⟨q, hq⟩, ht, hd⟩
          · have hne : t.pos ≠ p := fun h => by rw [h, hq] at e; cases e
            exact ⟨hput _ _ hne, hset hne, hd⟩
        · exact ⟨⟨q, hq⟩, fun u hu => ht u (mem_eraseIdx hu), hd⟩
      · omega
  | write r =>
    simp only [step]; split
    · rename_i e
      exact ⟨hput _ _ (fun h => by rw [h, hq] at e; cases e), ht, hd⟩
    · exact ⟨⟨q, hq⟩, ht, hd⟩
  | lose r =>
    simp only [step]; split
    · rename_i e
      exact ⟨hput _ _ (fun h => by rw [h, hq] at e; cases e), ht, hd⟩
    · exact ⟨⟨q, hq⟩, ht, hd⟩
  | store r =>
    simp only [step]; split
    · exact ⟨⟨q, hq⟩, ht, hd⟩
    · exact ⟨hput _ _ (fun h => hs (by rw [h])), by simpa [retire_fields] using ht, by simpa [retire_fields] using hd⟩
  | attach r =>
    simp only [step]; split
    · exact ⟨⟨q, hq⟩, ht, hd⟩
    · split
      · exact ⟨⟨q, hq⟩, ht, hd⟩
      · exact ⟨hput _ _ (fun h => ha (by rw [h])), by simpa [retire_fields] using ht, by simpa [retire_fields] using hd⟩
  | arrive b =>
    have hf := receive_fields W s b
    refine ⟨⟨q, by simp [step, hf, hq]⟩, by simpa [step, hf] using ht, by simpa [step, hf] using hd⟩

theorem blocked_run (W : World σ) (p : Nat) (hp : p < W.peers) (d : List Hdr) : ∀ (evs : List Ev) (s : Node σ),
    .store p ∉ evs → .attach p ∉ evs → Blocked p d s → Blocked p d (run W s evs)
  | [], _, _, _, H => H
  | e :: evs, s, hs, ha, H => by
    simp only [List.mem_cons, not_or] at hs ha
    exact blocked_run W p hp d evs _ hs.2 ha.2 (blocked_step W p hp d s e (Ne.symm hs.1) (Ne.symm ha.1) H)

/-! ### Off the chain -/

/-- The best header is one of our own that was never finished. -/
def Off (own : List Nat) (c : σ) (ρ : Nat → Option Nat) (s : Node σ) : Prop :=
  s.best.hash ∈ own ∧ s.committed = c ∧ s.roots = ρ

theorem off_step (W : World σ) (own : List Nat) (c : σ) (ρ : Nat → Option Nat) (hρ : ∀ h ∈ own, ρ h = none)
    (s : Node σ) (e : Ev) (hown : ∀ a n, e = .slot a n → a ∈ own)
    (hpos : ∀ t ∈ s.tasks, t.pos < W.peers) (H : Off own c ρ s) : Off own c ρ (step W s e) := by
  obtain ⟨h1, h2, h3⟩ := H
  cases e with
  | slot a n => exact ⟨hown a n rfl, h2, h3⟩
  | go i =>
    simp only [step]
    split
    · exact ⟨h1, h2, h3⟩
    · rename_i t hi
      have := hpos t (List.mem_of_getElem? hi)
      unfold go
      rw [if_pos this]
      split
      · exact ⟨h1, h2, h3⟩
      · exact ⟨h1, h2, h3⟩
      · split <;> exact ⟨h1, h2, h3⟩
      · exact ⟨h1, h2, h3⟩
  | write r => simp only [step]; split <;> exact ⟨h1, h2, h3⟩
  | lose r => simp only [step]; split <;> exact ⟨h1, h2, h3⟩
  | store r =>
    have hf := retire_fields s r
    simp only [step]; split
    · exact ⟨h1, h2, h3⟩
    · simp only [Off, hf]; exact ⟨h1, h2, h3⟩
  | attach r =>
    have hf := retire_fields s r
    simp only [step]; split
    · exact ⟨h1, h2, h3⟩
    · split
      · exact ⟨h1, h2, h3⟩
      · simp only [Off, hf]; exact ⟨h1, h2, h3⟩
  | arrive b =>
    simp only [step]
    rw [receive_rejected W s b (by rw [h3]; exact hρ _ h1)]
    exact ⟨h1, h2, h3⟩

theorem off_run (W : World σ) (own : List Nat) (c : σ) (ρ : Nat → Option Nat) (hρ : ∀ h ∈ own, ρ h = none) (p : Nat)
    (hp : p < W.peers) (d : List Hdr) : ∀ (evs : List Ev) (s : Node σ), .store p ∉ evs → .attach p ∉ evs →
    (∀ a ∈ ownHashes evs, a ∈ own) → Blocked p d s → Off own c ρ s → Off own c ρ (run W s evs)
  | [], _, _, _, _, _, H => H
  | e :: evs, s, hs, ha, ho, hb, H => by
    simp only [List.mem_cons, not_or] at hs ha
    refine off_run W own c ρ hρ p hp d evs _ hs.2 ha.2 ?_
      (blocked_step W p hp d s e (Ne.symm hs.1) (Ne.symm ha.1) hb)
      (off_step W own c ρ hρ s e ?_ (fun t h => Nat.lt_of_le_of_lt (hb.2.1 t h) hp) H)
    · intro a h
      apply ho
      cases e <;> simp only [ownHashes] <;> first | exact h | exact List.mem_cons_of_mem _ h
    · rintro a n rfl
      exact ho a (by simp [ownHashes])

theorem idle_step (W : World σ) (s : Node σ) (e : Ev) (hs : ∀ a n, e ≠ .slot a n) (ht : s.tasks = [])
    : (step W s e).tasks = [] := by
  cases e with
  | slot a n => exact absurd rfl (hs a n)
  | go i => simp [step, ht]
  | write r => simp only [step]; split <;> exact ht
  | lose r => simp only [step]; split <;> exact ht
  | store r => simp only [step]; split <;> simp [retire_fields, ht]
  | attach r =>
    simp only [step]; split
    · exact ht
    · split <;> simp [retire_fields, ht]
  | arrive b => simp [step, receive_fields, ht]

theorem idle_run (W : World σ) (b : Hdr) (c : σ) (ρ : Nat → Option Nat) (hρ : ρ b.hash = none) :
    ∀ (evs : List Ev) (s : Node σ), (∀ a n, .slot a n ∉ evs) → s.tasks = [] → s.best = b → s.committed = c → s.roots = ρ →
    (run W s evs).best = b ∧ (run W s evs).committed = c ∧ (run W s evs).roots = ρ
  | [], _, _, _, h1, h2, h3 => ⟨h1, h2, h3⟩
  | e :: evs, s, hs, ht, h1, h2, h3 => by
    have hne : ∀ a n, e ≠ .slot a n := fun a n h => hs a n (by simp [h])
    have hk : (step W s e).best = b ∧ (step W s e).committed = c ∧ (step W s e).roots = ρ := by
      cases e with
      | slot a n => exact absurd rfl (hne a n)
      | go i => simp [step, ht, h1, h2, h3]
      | write r => simp only [step]; split <;> exact ⟨h1, h2, h3⟩
      | lose r => simp only [step]; split <;> exact ⟨h1, h2, h3⟩
      | store r => simp only [step]; split <;> simp [retire_fields, h1, h2, h3]
      | attach r =>
        simp only [step]; split
        · exact ⟨h1, h2, h3⟩
        · split <;> simp [retire_fields, h1, h2, h3]
      | arrive x =>
        simp only [step]
        rw [receive_rejected W s x (by rw [h3, h1]; exact hρ)]
        exact ⟨h1, h2, h3⟩
    exact idle_run W b c ρ hρ evs _ (fun a n h => hs a n (by simp [h])) (idle_step W s e hne ht) hk.1 hk.2.1 hk.2.2

/-! ### A peer that does not read -/

/-- An announcement waits at a peer whose channel is full. -/
def Stalled (W : World σ) (p : Nat) (q : List Nat) (d : List Hdr) (s : Node σ) : Prop :=
  s.links p = .up true q ∧ W.cap ≤ q.length ∧ (∃ t ∈ s.tasks, t.pos = p) ∧ (∀ t ∈ s.tasks, t.pos ≤ p) ∧ s.done = d

theorem stalled_held (W : World σ) (p : Nat) (hp : p < W.peers) (q : List Nat) (d : List Hdr) (s : Node σ)
    (H : Stalled W p q d s) (r : Nat) (hr : W.shard r = W.shard p) : held W s r = true := by
  obtain ⟨hq, hc, ⟨t, ht, hpos⟩, _, _⟩ := H
  simp only [held, List.any_eq_true]
  exact ⟨t, ht, by simp [hpos, hp, hr, hq, full, hc]⟩

theorem stalled_step (W : World σ) (p : Nat) (hp : p < W.peers) (q : List Nat) (d : List Hdr) (s : Node σ) (e : Ev)
    (hw : e ≠ .write p) (hl : e ≠ .lose p) (H : Stalled W p q d s) : Stalled W p q d (step W s e) := by
  have hH := stalled_held W p hp q d s H
  have H0 := H
  obtain ⟨hq, hc, ⟨t0, ht0, hpos0⟩, ht, hd⟩ := H
  have hput : ∀ r l, r ≠ p → put s.links r l p = .up true q := by
    intro r l hr; simp [put, Ne.symm hr, hq]
  cases e with
  | slot a n =>
    refine ⟨hq, hc, ⟨t0, by simp [step, author, ht0], hpos0⟩, ?_, hd⟩
    intro t h
    simp only [step, author, List.mem_append, List.mem_singleton] at h
    rcases h with h | h
    · exact ht t h
    · subst h; exact Nat.zero_le _
  | go i =>
    simp only [step]
    split
    · exact H0
    · rename_i t hi
      have hm : t ∈ s.tasks := List.mem_of_getElem? hi
      have hle := ht t hm
      unfold go
      rw [if_pos (by omega)]
      by_cases hne : t.pos = p
      · rw [hne, hq]
        simp only [if_pos hc]
        exact H0
      · have hset : ∀ u ∈ s.tasks.set i { t with pos := t.pos + 1 }, u.pos ≤ p := by
          intro u hu
          rcases mem_set_cases hu with hu | hu
          · exact ht u hu
          · subst hu; show t.pos + 1 ≤ p; omega
        obtain ⟨j, hj, hj2⟩ := List.getElem_of_mem ht0
        have hji : j ≠ i := by
          rintro rfl
          rw [List.getElem?_eq_getElem hj, hj2] at hi
          injection hi with hi; subst hi; exact hne hpos0
        have hin : t0 ∈ s.tasks.set i { t with pos := t.pos + 1 } := by
          refine List.mem_of_getElem? (i := j) ?_
          rw [List.getElem?_set_ne (Ne.symm hji), List.getElem?_eq_getElem hj, hj2]
        have hin2 : t0 ∈ s.tasks.eraseIdx i :=
          List.mem_eraseIdx_iff_getElem.mpr ⟨j, hj, hji, hj2⟩
        split
        · exact ⟨hq, hc, ⟨t0, hin, hpos0⟩, hset, hd⟩
        · exact ⟨hq, hc, ⟨t0, hin, hpos0⟩, hset, hd⟩
        · split
          · exact H0
          · exact ⟨hput _ _ hne, hc, ⟨t0, hin, hpos0⟩, hset, hd⟩
        · exact ⟨hq, hc, ⟨t0, hin2, hpos0⟩, fun u hu => ht u (mem_eraseIdx hu), hd⟩
  | write r =>
    have hr : r ≠ p := fun h => hw (by rw [h])
    simp only [step]; split
    · exact ⟨hput _ _ hr, hc, ⟨t0, ht0, hpos0⟩, ht, hd⟩
    · exact H0
  | lose r =>
    have hr : r ≠ p := fun h => hl (by rw [h])
    simp only [step]; split
    · exact ⟨hput _ _ hr, hc, ⟨t0, ht0, hpos0⟩, ht, hd⟩
    · exact H0
  | store r =>
    simp only [step]; split
    · exact H0
    · rename_i hh
      have hr : r ≠ p := fun h => hh (hH r (by rw [h]))
      exact ⟨hput _ _ hr, hc, ⟨t0, by simpa [retire_fields] using ht0, hpos0⟩, by simpa [retire_fields] using ht,
        by simpa [retire_fields] using hd⟩
  | attach r =>
    simp only [step]; split
    · exact H0
    · rename_i hh
      have hr : r ≠ p := fun h => hh (hH r (by rw [h]))
      split
      · exact H0
      · exact ⟨hput _ _ hr, hc, ⟨t0, by simpa [retire_fields] using ht0, hpos0⟩, by simpa [retire_fields] using ht,
          by simpa [retire_fields] using hd⟩
  | arrive b =>
    have hf := receive_fields W s b
    simp only [step, Stalled, hf]
    exact ⟨hq, hc, ⟨t0, ht0, hpos0⟩, ht, hd⟩

theorem stalled_run (W : World σ) (p : Nat) (hp : p < W.peers) (q : List Nat) (d : List Hdr) :
    ∀ (evs : List Ev) (s : Node σ), .write p ∉ evs → .lose p ∉ evs → Stalled W p q d s → Stalled W p q d (run W s evs)
  | [], _, _, _, H => H
  | e :: evs, s, hw, hl, H => by
    simp only [List.mem_cons, not_or] at hw hl
    exact stalled_run W p hp q d evs _ hw.2 hl.2 (stalled_step W p hp q d s e (Ne.symm hw.1) (Ne.symm hl.1) H)

end
end Fastroll.Announce
