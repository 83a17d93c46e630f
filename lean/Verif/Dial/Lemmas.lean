import Verif.Dial.Model
/-
Lemmas on how nodes connect.
-/
namespace Fastroll.Dial

@[simp] theorem setPhase_phase (s : Net) (a : Nat) (x : Phase) (c : Nat) :
    (setPhase s a x).phase c = if c = a then x else s.phase c := rfl
@[simp] theorem setPhase_conn (s : Net) (a : Nat) (x : Phase) : (setPhase s a x).conn = s.conn := rfl
@[simp] theorem setPhase_inb (s : Net) (a : Nat) (x : Phase) : (setPhase s a x).inb = s.inb := rfl

/-- The steps as they change the three parts. -/
theorem conn_mono (W : World) (s : Net) (e : Ev) (a b : Nat) (h : s.conn a b = true) : (step W s e).conn a b = true := by
  cases e <;> simp only [step] <;> repeat' split
  all_goals first | exact h | (simp only [setPhase_conn, setPair]; first | exact h | (split <;> first | rfl | exact h))

theorem listens_mono (W : World) (s : Net) (e : Ev) (c : Nat) (h : (s.phase c).listens = true) :
    ((step W s e).phase c).listens = true := by
  have hd : ∀ b f (x : Phase), x.listens = true → (x.drop b f).listens = true := by
    intro b f x hx; cases x <;> simp_all [Phase.drop, Phase.listens]
  cases e <;> simp only [step] <;> repeat' split
  all_goals first
    | exact h
    | (simp only [setPhase_phase]; split
       · rename_i e; subst e; first | rfl | exact hd _ _ _ h
       · exact h)

/-! ### A node that is through has all connections -/

/-- What the phase of a node says about its table. -/
def Has (W : World) (s : Net) (a : Nat) : Prop :=
  ∀ b, b < W.n → b ≠ a →
    match s.phase a with
    | .second p false => b ∈ p ∨ s.conn a b = true
    | .ready => s.conn a b = true
    | _ => True

theorem mem_targets (W : World) (s : Net) (a : Nat) (P : Nat → Bool) (b : Nat) :
    b ∈ targets W s a P ↔ b < W.n ∧ b ≠ a ∧ s.conn a b = false ∧ P b = true := by
  simp [targets, and_assoc]

/-- `Has` depends on the phase and the row of the node only, and more connections keep it. -/
theorem has_keep (W : World) (s t : Net) (a : Nat) (hp : t.phase a = s.phase a)
    (hc : ∀ b, s.conn a b = true → t.conn a b = true) (H : Has W s a) : Has W t a := by
  intro b hb hne
  have := H b hb hne
  rw [hp]
  cases e : s.phase a with
  | second p f =>
    rw [e] at this
    cases f with
    | false => exact this.imp id (hc b)
    | true => trivial
  | ready => rw [e] at this; exact hc b this
  | _ => trivial

theorem has_step (W : World) (s : Net) (e : Ev) (a : Nat) (H : Has W s a) : Has W (step W s e) a := by
  by_cases hp : (step W s e).phase a = s.phase a
  · exact has_keep W s _ a hp (fun b => conn_mono W s e a b) H
  · have hm := conn_mono W s e a
    cases e with
    | start c =>
      simp only [step] at hp ⊢
      split
      · rename_i h
        by_cases hc : a = c
        · subst hc; intro b _ _; simp
        · simp [h, hc] at hp
      · rename_i h; simp [h] at hp
    | begin c =>
      simp only [step] at hp ⊢
      split
      · rename_i h
        by_cases hc : a = c
        · subst hc; intro b _ _; simp
        · simp [h, hc] at hp
      · rename_i h; simp [h] at hp
    | reach c d =>
      simp only [step] at hp ⊢ hm
      split
      · rename_i h
        rw [if_pos h] at hm hp
        by_cases hc : a = c
        · subst hc
          intro b hb hne
          have h0 := H b hb hne
          simp only [setPhase_phase, if_true]
          cases e : s.phase a with
          | second p f =>
            rw [e] at h0
            cases f with
            | true => simp [Phase.drop]
            | false =>
              simp only [Phase.drop, Bool.or_self]
              by_cases hbd : b = d
              · right; simp [setPair, hbd]
              · rcases h0 with h0 | h0
                · exact .inl ((List.mem_erase_of_ne hbd).2 h0)
                · exact .inr (hm b h0)
          | ready => rw [e] at h0; exact hm b h0
          | first p f => simp [Phase.drop]
          | stopped p => simp [Phase.drop]
          | off => simp [Phase.drop]
          | up => simp [Phase.drop]
          | pause => simp [Phase.drop]
        · simp [hc] at hp
      · rename_i h; rw [if_neg h] at hp; exact absurd rfl hp
    | timeout c d =>
      simp only [step] at hp ⊢
      split
      · rename_i h
        rw [if_pos h] at hp
        by_cases hc : a = c
        · subst hc
          intro b hb hne
          have h0 := H b hb hne
          simp only [setPhase_phase, if_true]
          cases e : s.phase a with
          | second p f => simp [Phase.drop]
          | ready => rw [e] at h0; exact h0
          | first p f => simp [Phase.drop]
          | stopped p => simp [Phase.drop]
          | off => simp [Phase.drop]
          | up => simp [Phase.drop]
          | pause => simp [Phase.drop]
        · simp [hc] at hp
      · rename_i h; rw [if_neg h] at hp; exact absurd rfl hp
    | fin c =>
      by_cases hc : a = c
      · subst hc
        simp only [step]
        cases e : s.phase a with
        | first p f =>
          dsimp only
          repeat' split
          · intro b _ _; simp
          · intro b _ _; simp
          · exact H
        | second p f =>
          dsimp only
          split
          · intro b _ _; simp
          · rename_i hf
            have hf : f = false := by simpa using hf
            subst hf
            split
            · rename_i hp0
              subst hp0
              intro b hb hne
              have h0 := H b hb hne
              rw [e] at h0
              simp only [setPhase_phase, if_true]
              rcases h0 with h0 | h0
              · cases h0
              · exact h0
            · exact H
        | off => exact H
        | up => exact H
        | pause => exact H
        | ready => exact H
        | stopped p => exact H
      · exfalso
        apply hp
        simp only [step]
        repeat' split
        all_goals simp [hc]
    | again c =>
      simp only [step] at hp ⊢
      split
      · rename_i h
        by_cases hc : a = c
        · subst hc
          intro b hb hne
          simp only [setPhase_phase, if_true]
          cases e : s.conn a b with
          | true => exact .inr e
          | false => exact .inl ((mem_targets W s a _ b).2 ⟨hb, hne, e, rfl⟩)
        · simp [h, hc] at hp
      · rename_i h; simp [h] at hp
    | accept c d =>
      exfalso
      apply hp
      simp only [step]
      split <;> rfl

theorem has_run (W : World) (a : Nat) : ∀ (evs : List Ev) (s : Net), Has W s a → Has W (run W s evs) a
  | [], _, H => H
  | e :: evs, s, H => has_run W a evs _ (has_step W s e a H)

/-! ### Both sides -/

/-- A connection is in the tables of both nodes, or on its way into the second. -/
def Paired (s : Net) : Prop :=
  ∀ a b, (s.conn a b = true → s.conn b a = true ∨ s.inb b a = true) ∧ (s.inb b a = true → s.conn a b = true)

theorem paired_step (W : World) (s : Net) (e : Ev) (H : Paired s) : Paired (step W s e) := by
  cases e with
  | start c => simp only [step]; split <;> exact H
  | begin c => simp only [step]; split <;> exact H
  | timeout c d => simp only [step]; split <;> exact H
  | fin c => simp only [step]; repeat' split
             all_goals exact H
  | again c => simp only [step]; split <;> exact H
  | reach c d =>
    simp only [step]
    split
    · intro a b
      have h := H a b
      simp only [setPair]
      constructor
      · grind
      · grind
    · exact H
  | accept c d =>
    simp only [step]
    split
    · rename_i hi
      have h2 := (H d c).2 hi
      intro a b
      have h := H a b
      simp only [setPair]
      constructor
      · grind
      · grind
    · exact H

theorem paired_run (W : World) : ∀ (evs : List Ev) (s : Net), Paired s → Paired (run W s evs)
  | [], _, H => H
  | e :: evs, s, H => paired_run W evs _ (paired_step W s e H)

/-! ### Failures come from time limits only -/

/-- No attempt of the node has failed. -/
def Phase.clean : Phase → Bool
  | .first _ f => !f
  | .second _ f => !f
  | .stopped _ => false
  | _ => true

theorem clean_step (W : World) (s : Net) (e : Ev) (a : Nat) (he : ∀ b, e = .timeout a b → (s.phase b).listens = true ∨ b ∉ (s.phase a).pending)
    (H : (s.phase a).clean = true) : ((step W s e).phase a).clean = true := by
  have hd : ∀ b (x : Phase), x.clean = true → (x.drop b false).clean = true := by
    intro b x hx; cases x <;> simp_all [Phase.drop, Phase.clean]
  cases e with
  | start c => simp only [step]; split <;> (try simp only [setPhase_phase]) <;> (try split) <;> first | exact H | rfl
  | begin c => simp only [step]; split <;> (try simp only [setPhase_phase]) <;> (try split) <;> first | exact H | rfl
  | again c => simp only [step]; split <;> (try simp only [setPhase_phase]) <;> (try split) <;> first | exact H | rfl
  | accept c d => simp only [step]; split <;> exact H
  | reach c d =>
    simp only [step]; split
    · simp only [setPhase_phase]
      split
      · rename_i h; subst h; exact hd _ _ H
      · exact H
    · exact H
  | timeout c d =>
    simp only [step]; split
    · rename_i h
      simp only [setPhase_phase]
      split
      · rename_i hc; subst hc
        rcases he d rfl with h1 | h1
        · rw [h1] at h; exact absurd h.2 (by simp)
        · exact absurd h.1 h1
      · exact H
    · exact H
  | fin c =>
    by_cases hc : a = c
    · subst hc
      simp only [step]
      cases e : s.phase a with
      | first p f =>
        rw [e] at H
        have : f = false := by simpa [Phase.clean] using H
        subst this
        dsimp only
        split
        · contradiction
        · split
          · simp [Phase.clean]
          · simpa [e] using H
      | second p f =>
        rw [e] at H
        have : f = false := by simpa [Phase.clean] using H
        subst this
        dsimp only
        split
        · contradiction
        · split
          · simp [Phase.clean]
          · simpa [e] using H
      | off => simpa [e] using H
      | up => simpa [e] using H
      | pause => simpa [e] using H
      | ready => simpa [e] using H
      | stopped p => rw [e] at H; cases H
    · have : (step W s (.fin c)).phase a = s.phase a := by
        simp only [step]
        repeat' split
        all_goals simp [hc]
      rw [this]; exact H

theorem clean_run_no_timeout (W : World) (a : Nat) : ∀ (evs : List Ev) (s : Net), (∀ b, .timeout a b ∉ evs) →
    (s.phase a).clean = true → ((run W s evs).phase a).clean = true
  | [], _, _, H => H
  | e :: evs, s, h, H => clean_run_no_timeout W a evs _ (fun b hb => h b (List.mem_cons_of_mem _ hb))
      (clean_step W s e a (fun b hb => absurd (by rw [hb]; exact List.mem_cons_self) (h b)) H)

theorem pending_lt_step (W : World) (s : Net) (e : Ev) (a : Nat) (H : ∀ b ∈ (s.phase a).pending, b < W.n ∧ b ≠ a) :
    ∀ b ∈ ((step W s e).phase a).pending, b < W.n ∧ b ≠ a := by
  have hd : ∀ d f (x : Phase), ∀ b ∈ (x.drop d f).pending, b ∈ x.pending := by
    intro d f x b hb
    cases x <;> simp only [Phase.drop, Phase.pending] at hb ⊢ <;> first | exact List.mem_of_mem_erase hb | exact hb
  intro b hb
  cases e with
  | start c =>
    simp only [step] at hb; split at hb
    · simp only [setPhase_phase] at hb
      split at hb
      · cases hb
      · exact H b hb
    · exact H b hb
  | begin c =>
    simp only [step] at hb; split at hb
    · simp only [setPhase_phase] at hb
      split at hb
      · rename_i hc; subst hc
        have := (mem_targets W s a _ b).1 hb
        exact ⟨this.1, this.2.1⟩
      · exact H b hb
    · exact H b hb
  | again c =>
    simp only [step] at hb; split at hb
    · simp only [setPhase_phase] at hb
      split at hb
      · rename_i hc; subst hc
        have := (mem_targets W s a _ b).1 hb
        exact ⟨this.1, this.2.1⟩
      · exact H b hb
    · exact H b hb
  | accept c d => simp only [step] at hb; split at hb <;> exact H b hb
  | reach c d =>
    simp only [step] at hb; split at hb
    · simp only [setPhase_phase] at hb
      split at hb
      · rename_i hc; subst hc; exact H b (hd _ _ _ b hb)
      · exact H b hb
    · exact H b hb
  | timeout c d =>
    simp only [step] at hb; split at hb
    · simp only [setPhase_phase] at hb
      split at hb
      · rename_i hc; subst hc; exact H b (hd _ _ _ b hb)
      · exact H b hb
    · exact H b hb
  | fin c =>
    by_cases hc : a = c
    · subst hc
      simp only [step] at hb
      cases e : s.phase a with
      | first p f =>
        rw [e] at hb H
        dsimp only at hb
        repeat' split at hb
        all_goals simp only [setPhase_phase, if_true, Phase.pending, e] at hb H
        all_goals first | exact H b hb | cases hb
      | second p f =>
        rw [e] at hb H
        dsimp only at hb
        repeat' split at hb
        all_goals simp only [setPhase_phase, if_true, Phase.pending, e] at hb H
        all_goals first | exact H b hb | cases hb
      | off => rw [e] at hb; exact H b hb
      | up => rw [e] at hb; exact H b hb
      | pause => rw [e] at hb; exact H b hb
      | ready => rw [e] at hb; exact H b hb
      | stopped p => rw [e] at hb; exact H b hb
    · have : (step W s (.fin c)).phase a = s.phase a := by
        simp only [step]
        repeat' split
        all_goals simp [hc]
      rw [this] at hb; exact H b hb

/-- A node that starts when all others listen. -/
theorem clean_run_last (W : World) (a : Nat) : ∀ (evs : List Ev) (s : Net),
    (∀ b, b < W.n → b ≠ a → (s.phase b).listens = true) → (∀ b ∈ (s.phase a).pending, b < W.n ∧ b ≠ a) →
    (s.phase a).clean = true → ((run W s evs).phase a).clean = true
  | [], _, _, _, H => H
  | e :: evs, s, hl, hp, H => by
    refine clean_run_last W a evs _ (fun b h1 h2 => listens_mono W s e b (hl b h1 h2)) (pending_lt_step W s e a hp) ?_
    refine clean_step W s e a (fun b _ => ?_) H
    by_cases hb : b ∈ (s.phase a).pending
    · exact .inl (hl b (hp b hb).1 (hp b hb).2)
    · exact .inr hb

/-! ### What is not connected stays so -/

/-- The node makes no further attempt at `b`. -/
def Phase.over (b : Nat) : Phase → Bool
  | .ready => true
  | .stopped p => !p.contains b
  | _ => false

theorem over_step (W : World) (s : Net) (e : Ev) (a b : Nat) (H : (s.phase a).over b = true) :
    ((step W s e).phase a).over b = true := by
  have hd : ∀ d f (x : Phase), x.over b = true → (x.drop d f).over b = true := by
    intro d f x hx
    cases x <;> simp only [Phase.drop, Phase.over] at hx ⊢ <;> try exact hx
    simp only [Bool.not_eq_true', List.contains_eq_mem, decide_eq_false_iff_not] at hx ⊢
    exact fun h => hx (List.mem_of_mem_erase h)
  have hne : s.phase a ≠ .off ∧ s.phase a ≠ .up ∧ s.phase a ≠ .pause := by
    refine ⟨?_, ?_, ?_⟩ <;> intro h <;> rw [h] at H <;> cases H
  cases e with
  | start c =>
    simp only [step]; split
    · rename_i h; simp only [setPhase_phase]; split
      · rename_i hc; subst hc; exact absurd h.2 hne.1
      · exact H
    · exact H
  | begin c =>
    simp only [step]; split
    · rename_i h; simp only [setPhase_phase]; split
      · rename_i hc; subst hc; exact absurd h hne.2.1
      · exact H
    · exact H
  | again c =>
    simp only [step]; split
    · rename_i h; simp only [setPhase_phase]; split
      · rename_i hc; subst hc; exact absurd h hne.2.2
      · exact H
    · exact H
  | accept c d => simp only [step]; split <;> exact H
  | reach c d =>
    simp only [step]; split
    · simp only [setPhase_phase]; split
      · rename_i hc; subst hc; exact hd _ _ _ H
      · exact H
    · exact H
  | timeout c d =>
    simp only [step]; split
    · simp only [setPhase_phase]; split
      · rename_i hc; subst hc; exact hd _ _ _ H
      · exact H
    · exact H
  | fin c =>
    have : (step W s (.fin c)).phase a = s.phase a := by
      by_cases hc : a = c
      · subst hc
        simp only [step]
        cases e : s.phase a with
        | first p f => rw [e] at H; cases H
        | second p f => rw [e] at H; cases H
        | _ => simp [e]
      · simp only [step]
        repeat' split
        all_goals simp [hc]
    rw [this]; exact H

/-- Two nodes that have each finished with the other. -/
def Apart (a b : Nat) (s : Net) : Prop :=
  (s.phase a).over b = true ∧ (s.phase b).over a = true ∧ s.conn a b = false ∧ s.conn b a = false ∧ s.inb a b = false ∧ s.inb b a = false

theorem over_pending {b : Nat} {x : Phase} (h : x.over b = true) : b ∉ x.pending := by
  cases x <;> simp_all [Phase.over, Phase.pending]

theorem apart_step (W : World) (s : Net) (e : Ev) (a b : Nat) (H : Apart a b s) : Apart a b (step W s e) := by
  obtain ⟨h1, h2, h3, h4, h5, h6⟩ := H
  refine ⟨over_step W s e a b h1, over_step W s e b a h2, ?_⟩
  have p1 := over_pending h1
  have p2 := over_pending h2
  cases e with
  | start c => simp only [step]; split <;> exact ⟨h3, h4, h5, h6⟩
  | begin c => simp only [step]; split <;> exact ⟨h3, h4, h5, h6⟩
  | again c => simp only [step]; split <;> exact ⟨h3, h4, h5, h6⟩
  | timeout c d => simp only [step]; split <;> exact ⟨h3, h4, h5, h6⟩
  | fin c => simp only [step]; repeat' split
             all_goals exact ⟨h3, h4, h5, h6⟩
  | accept c d =>
    simp only [step]; split
    · rename_i hi
      have n1 : ¬ (a = c ∧ b = d) := by rintro ⟨rfl, rfl⟩; rw [h5] at hi; cases hi
      have n2 : ¬ (b = c ∧ a = d) := by rintro ⟨rfl, rfl⟩; rw [h6] at hi; cases hi
      simp only [setPair, n1, n2, if_false]
      exact ⟨h3, h4, h5, h6⟩
    · exact ⟨h3, h4, h5, h6⟩
  | reach c d =>
    simp only [step]; split
    · rename_i hi
      have n1 : ¬ (a = c ∧ b = d) := by rintro ⟨rfl, rfl⟩; exact p1 hi.1
      have n2 : ¬ (b = c ∧ a = d) := by rintro ⟨rfl, rfl⟩; exact p2 hi.1
      have n3 : ¬ (a = d ∧ b = c) := fun h => n2 ⟨h.2, h.1⟩
      have n4 : ¬ (b = d ∧ a = c) := fun h => n1 ⟨h.2, h.1⟩
      simp only [setPair, n1, n2, n3, n4, if_false]
      exact ⟨h3, h4, h5, h6⟩
    · exact ⟨h3, h4, h5, h6⟩

theorem apart_run (W : World) (a b : Nat) : ∀ (evs : List Ev) (s : Net), Apart a b s → Apart a b (run W s evs)
  | [], _, H => H
  | e :: evs, s, H => apart_run W a b evs _ (apart_step W s e a b H)

end Fastroll.Dial

/-! ### Calls are not repeated -/
namespace Fastroll.Dial

theorem drop_pending (x : Phase) (d : Nat) (f : Bool) : (x.drop d f).pending = x.pending.erase d := by
  cases x <;> simp [Phase.drop, Phase.pending]

/-- How a step changes the attempts of a node. -/
theorem pending_step (W : World) (s : Net) (e : Ev) (a : Nat) :
    ((step W s e).phase a).pending = (s.phase a).pending ∨ (∃ d, ((step W s e).phase a).pending = (s.phase a).pending.erase d) ∨
    ((step W s e).phase a).pending = [] ∨
    (∃ P, ((step W s e).phase a).pending = targets W s a P) := by
  cases e with
  | start c =>
    simp only [step]; split
    · simp only [setPhase_phase]; split
      · exact .inr (.inr (.inl rfl))
      · exact .inl rfl
    · exact .inl rfl
  | begin c =>
    simp only [step]; split
    · simp only [setPhase_phase]; split
      · rename_i h; subst h; exact .inr (.inr (.inr ⟨_, rfl⟩))
      · exact .inl rfl
    · exact .inl rfl
  | again c =>
    simp only [step]; split
    · simp only [setPhase_phase]; split
      · rename_i h; subst h; exact .inr (.inr (.inr ⟨_, rfl⟩))
      · exact .inl rfl
    · exact .inl rfl
  | accept c d => simp only [step]; split <;> exact .inl rfl
  | reach c d =>
    simp only [step]; split
    · simp only [setPhase_phase]; split
      · rename_i h; subst h; exact .inr (.inl ⟨d, drop_pending _ _ _⟩)
      · exact .inl rfl
    · exact .inl rfl
  | timeout c d =>
    simp only [step]; split
    · simp only [setPhase_phase]; split
      · rename_i h; subst h; exact .inr (.inl ⟨d, drop_pending _ _ _⟩)
      · exact .inl rfl
    · exact .inl rfl
  | fin c =>
    by_cases hc : a = c
    · subst hc
      simp only [step]
      cases e : s.phase a with
      | first p f =>
        dsimp only
        repeat' split
        · exact .inl (by simp [Phase.pending])
        · exact .inr (.inr (.inl (by simp [Phase.pending])))
        · exact .inl (by rw [e])
      | second p f =>
        dsimp only
        repeat' split
        · exact .inl (by simp [Phase.pending])
        · exact .inr (.inr (.inl (by simp [Phase.pending])))
        · exact .inl (by rw [e])
      | off => exact .inl (by simp [e])
      | up => exact .inl (by simp [e])
      | pause => exact .inl (by simp [e])
      | ready => exact .inl (by simp [e])
      | stopped p => exact .inl (by simp [e])
    · left
      simp only [step]
      repeat' split
      all_goals simp [hc]

theorem pending_nodup (W : World) (a : Nat) : ∀ (evs : List Ev) (s : Net), (s.phase a).pending.Nodup →
    ((run W s evs).phase a).pending.Nodup
  | [], _, H => H
  | e :: evs, s, H => by
    refine pending_nodup W a evs _ ?_
    rcases pending_step W s e a with h | ⟨d, h⟩ | h | ⟨P, h⟩ <;> rw [h]
    · exact H
    · exact H.erase d
    · exact List.nodup_nil
    · exact List.nodup_range.filter _

theorem once_run (W : World) (a b : Nat) : ∀ (evs : List Ev) (s : Net), s.conn a b = true → b ∉ (s.phase a).pending →
    b ∉ ((run W s evs).phase a).pending
  | [], _, _, H => H
  | e :: evs, s, hc, H => by
    refine once_run W a b evs _ (conn_mono W s e a b hc) ?_
    rcases pending_step W s e a with h | ⟨d, h⟩ | h | ⟨P, h⟩ <;> rw [h]
    · exact H
    · exact fun h => H (List.mem_of_mem_erase h)
    · exact List.not_mem_nil
    · intro h
      have := ((mem_targets W s a P b).1 h).2.2.1
      rw [hc] at this; cases this

/-! ### Connections are between running nodes -/

/-- Everything in the tables, in the queues and among the attempts is a pair of distinct nodes of the network; the two of
a connection both listen. -/
def Sound (W : World) (s : Net) : Prop :=
  (∀ a, (s.phase a).listens = true → a < W.n) ∧
  (∀ a, ∀ b ∈ (s.phase a).pending, b < W.n ∧ b ≠ a) ∧
  (∀ a b, s.conn a b = true ∨ s.inb a b = true → a ≠ b ∧ (s.phase a).listens = true ∧ (s.phase b).listens = true)

theorem listens_of_pending {x : Phase} {b : Nat} (h : b ∈ x.pending) : x.listens = true := by
  cases x <;> simp_all [Phase.pending, Phase.listens]

theorem listens_step (W : World) (s : Net) (e : Ev) (c : Nat) (h : ((step W s e).phase c).listens = true) :
    (s.phase c).listens = true ∨ c < W.n := by
  cases hl : (s.phase c).listens with
  | true => exact .inl rfl
  | false =>
    right
    have ho : s.phase c = .off := by
      cases e : s.phase c <;> rw [e] at hl <;> first | rfl | cases hl
    have hno : ∀ x, (step W s e).phase c = x → x.listens = true := fun x hx => hx ▸ h
    cases e with
    | start d =>
      simp only [step] at h
      split at h
      · rename_i hh
        by_cases hc : c = d
        · exact hc ▸ hh.1
        · simp only [setPhase_phase, if_neg hc] at h; rw [hl] at h; cases h
      · rw [hl] at h; cases h
    | begin d =>
      simp only [step] at h
      split at h
      · rename_i hh
        have hc : c ≠ d := fun e => by subst e; rw [ho] at hh; cases hh
        simp only [setPhase_phase, if_neg hc] at h; rw [hl] at h; cases h
      · rw [hl] at h; cases h
    | again d =>
      simp only [step] at h
      split at h
      · rename_i hh
        have hc : c ≠ d := fun e => by subst e; rw [ho] at hh; cases hh
        simp only [setPhase_phase, if_neg hc] at h; rw [hl] at h; cases h
      · rw [hl] at h; cases h
    | reach d k =>
      simp only [step] at h
      split at h
      · rename_i hh
        have hc : c ≠ d := fun e => by subst e; rw [ho] at hh; cases hh.1
        simp only [setPhase_phase, if_neg hc] at h; rw [hl] at h; cases h
      · rw [hl] at h; cases h
    | timeout d k =>
      simp only [step] at h
      split at h
      · rename_i hh
        have hc : c ≠ d := fun e => by subst e; rw [ho] at hh; cases hh.1
        simp only [setPhase_phase, if_neg hc] at h; rw [hl] at h; cases h
      · rw [hl] at h; cases h
    | fin d =>
      have : (step W s (.fin d)).phase c = s.phase c := by
        by_cases hc : c = d
        · subst hc; simp only [step]; rw [ho]; simp [ho]
        · simp only [step]; repeat' split
          all_goals simp [hc]
      rw [this, hl] at h; cases h
    | accept d k => simp only [step] at h; split at h <;> (rw [hl] at h; cases h)

theorem sound_step (W : World) (s : Net) (e : Ev) (H : Sound W s) : Sound W (step W s e) := by
  obtain ⟨h1, h2, h3⟩ := H
  refine ⟨fun a h => (listens_step W s e a h).elim (h1 a) id, fun a => pending_lt_step W s e a (h2 a), ?_⟩
  have key : ∀ a b, (step W s e).conn a b = true ∨ (step W s e).inb a b = true →
      a ≠ b ∧ (s.phase a).listens = true ∧ (s.phase b).listens = true := by
    intro a b h
    cases e with
    | start c => simp only [step] at h; split at h <;> exact h3 a b h
    | begin c => simp only [step] at h; split at h <;> exact h3 a b h
    | again c => simp only [step] at h; split at h <;> exact h3 a b h
    | timeout c d => simp only [step] at h; split at h <;> exact h3 a b h
    | fin c => simp only [step] at h; repeat' split at h
               all_goals exact h3 a b h
    | accept c d =>
      simp only [step] at h; split at h
      · rename_i hi
        have hcd := h3 c d (.inr hi)
        simp only [setPair] at h
        by_cases e : a = c ∧ b = d
        · obtain ⟨rfl, rfl⟩ := e; exact hcd
        · simp only [e, if_false] at h; exact h3 a b h
      · exact h3 a b h
    | reach c d =>
      simp only [step] at h; split at h
      · rename_i hi
        have hcd := h2 c d hi.1
        have hlc := listens_of_pending hi.1
        simp only [setPair] at h
        by_cases e : a = c ∧ b = d
        · obtain ⟨rfl, rfl⟩ := e; exact ⟨Ne.symm hcd.2, hlc, hi.2⟩
        · by_cases e' : a = d ∧ b = c
          · obtain ⟨rfl, rfl⟩ := e'; exact ⟨hcd.2, hi.2, hlc⟩
          · simp only [e, e', if_false] at h; exact h3 a b h
      · exact h3 a b h
  intro a b h
  obtain ⟨k1, k2, k3⟩ := key a b h
  exact ⟨k1, listens_mono W s e a k2, listens_mono W s e b k3⟩

theorem sound_run (W : World) : ∀ (evs : List Ev) (s : Net), Sound W s → Sound W (run W s evs)
  | [], _, H => H
  | e :: evs, s, H => sound_run W evs _ (sound_step W s e H)

theorem sound_dark (W : World) : Sound W dark :=
  ⟨fun _ h => (by cases h), fun _ _ h => (by cases h), fun _ _ h => (by rcases h with h | h <;> cases h)⟩

end Fastroll.Dial
