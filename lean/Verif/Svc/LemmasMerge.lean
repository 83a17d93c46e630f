import Verif.Svc.MergeModel
import Verif.Svc.LemmasRun

/-! # Lemmas: the merge of a round, account by account -/
namespace Fastroll.Svc
open Fastroll.Pvm

/-- The metadata entry of an account, loaded if necessary. -/
def infoAt (g : Global) (bs : Boxes) (s : Nat) : Option (Entry Meta) :=
  match boxGet bs s with
  | some b => some b.info
  | none => (g.metas s).map Entry.fromClean

theorem infoAt_some {g : Global} {bs : Boxes} {s : Nat} {b : Box} (h : boxGet bs s = some b) : infoAt g bs s = some b.info := by
  unfold infoAt; rw [h]

theorem view_infoAt (g : Global) (bs : Boxes) (s : Nat) : (view g bs).metas s = (infoAt g bs s).bind (·.value) := by
  unfold infoAt view
  dsimp only
  cases h : boxGet bs s with
  | some b => rfl
  | none => simp only; cases h2 : g.metas s <;> rfl

theorem infoAt_set (g : Global) (bs : Boxes) (s : Nat) (b : Box) (s' : Nat) :
    infoAt g (boxSet bs s b) s' = if s' = s then some b.info else infoAt g bs s' := by
  unfold infoAt; rw [boxGet_set]
  by_cases c : s' = s
  · simp [c]
  · simp [c]

theorem infoAt_ensure (g : Global) (bs : Boxes) (s s' : Nat) : infoAt g (ensure g bs s) s' = infoAt g bs s' := by
  unfold ensure
  cases h : boxGet bs s with
  | some b => rfl
  | none =>
    cases h2 : g.metas s with
    | none => rfl
    | some m =>
      rw [infoAt_set]
      split
      · next c => subst c; unfold infoAt; rw [h, h2]; rfl
      · rfl

theorem infoAt_keep {g : Global} {bs : Boxes} {s : Nat} {b b' : Box} (h : boxGet bs s = some b) (hi : b'.info = b.info) (s' : Nat) :
    infoAt g (boxSet bs s b') s' = infoAt g bs s' := by
  rw [infoAt_set]
  split
  · next c => subst c; rw [infoAt_some h, hi]
  · rfl

theorem getLookup_info {g : Global} {bs : Boxes} {s : Nat} {k : LKey} (s' : Nat) :
    infoAt g (getLookup g bs s k).2 s' = infoAt g bs s' := by
  unfold getLookup
  dsimp only
  cases h : boxGet (ensure g bs s) s with
  | none => exact infoAt_ensure g bs s s'
  | some b =>
    simp only
    rw [← infoAt_ensure g bs s s']
    exact infoAt_keep h (by rfl) s'

theorem insertPreimage_info {g : Global} {bs bs' : Boxes} {s : Nat} {k v : Bytes} (h : insertPreimage g bs s k v = some bs') (s' : Nat) :
    infoAt g bs' s' = infoAt g bs s' := by
  unfold insertPreimage at h
  dsimp only at h
  cases hb : boxGet (ensure g bs s) s with
  | none => rw [hb] at h; cases h
  | some b =>
    rw [hb] at h
    cases h
    rw [← infoAt_ensure g bs s s']
    exact infoAt_keep hb (by rfl) s'

theorem insertLookup_info {g : Global} {bs bs' : Boxes} {s : Nat} {k : LKey} {v : List Nat} (h : insertLookup g bs s k v = some bs') (s' : Nat) :
    infoAt g bs' s' = infoAt g bs s' := by
  unfold insertLookup at h
  dsimp only at h
  cases hb : boxGet (ensure g bs s) s with
  | none => rw [hb] at h; cases h
  | some b =>
    rw [hb] at h
    cases h
    rw [← infoAt_ensure g bs s s']
    exact infoAt_keep hb (by rfl) s'

theorem push_info {g : Global} {bs bs' : Boxes} {s t : Nat} {k : LKey} (h : (boxStore g).push bs s k t = some bs') (s' : Nat) :
    infoAt g bs' s' = infoAt g bs s' := by
  unfold Store.push at h
  have hl := getLookup_info (g := g) (bs := bs) (s := s) (k := k) s'
  rw [show (boxStore g).getL bs s k = getLookup g bs s k from rfl] at h
  generalize getLookup g bs s k = r at h hl
  obtain ⟨o, b1⟩ := r
  cases o with
  | none => cases h
  | some ts =>
    simp only at h
    split at h
    · rw [insertLookup_info (show insertLookup g b1 s k (ts ++ [t]) = some bs' from h), hl]
    · cases h

theorem existsActive_info {g : Global} {bs : Boxes} {s : Nat} (s' : Nat) : infoAt g (existsActive g bs s).2 s' = infoAt g bs s' := by
  unfold existsActive
  dsimp only
  cases h : boxGet (ensure g bs s) s <;> exact infoAt_ensure g bs s s'

theorem provideOne_info {g : Global} {env : Env} {bs bs' : Boxes} {e : Nat × Bytes} (h : provideOne g env bs e = some bs') (s' : Nat) :
    infoAt g bs' s' = infoAt g bs s' := by
  unfold provideOne at h
  have h0 := existsActive_info (g := g) (bs := bs) (s := e.1) s'
  generalize existsActive g bs e.1 = r at h h0
  obtain ⟨o, b1⟩ := r
  cases o with
  | false => cases h; exact h0
  | true =>
    simp only at h
    have h1 := getLookup_info (g := g) (bs := b1) (s := e.1) (k := (env.hash e.2, e.2.length % U32)) s'
    generalize getLookup g b1 e.1 (env.hash e.2, e.2.length % U32) = r at h h1
    obtain ⟨o, b2⟩ := r
    cases o with
    | none => cases h; exact h1.trans h0
    | some ts =>
      simp only at h
      split at h
      · cases h; exact h1.trans h0
      · cases h3 : insertPreimage g b2 e.1 (env.hash e.2) e.2 with
        | none => rw [h3] at h; cases h
        | some b3 =>
          rw [h3] at h
          rw [push_info h, insertPreimage_info h3, h1, h0]

theorem provideAll_info {g : Global} {env : Env} : ∀ (es : List (Nat × Bytes)) (bs bs' : Boxes), provideAll g env es bs = some bs' → ∀ s',
    infoAt g bs' s' = infoAt g bs s' := by
  intro es
  induction es with
  | nil => intro bs bs' h s'; cases h; rfl
  | cons e es ih =>
    intro bs bs' h s'
    unfold provideAll at h
    cases h1 : provideOne g env bs e with
    | none => rw [h1] at h; cases h
    | some b1 => rw [h1] at h; rw [ih b1 bs' h s', provideOne_info h1]

/-! ## One result -/

/-- An account other than the host's that the result creates or ejects. -/
def Touches (g : Global) (b : Base) (r : AccResult) (s : Nat) : Prop :=
  s ≠ r.host ∧ ∃ bx, boxGet (ensure g r.p.boxes r.host) s = some bx ∧ counts g b s bx = true

instance (g : Global) (b : Base) (r : AccResult) (s : Nat) : Decidable (Touches g b r s) := by
  unfold Touches
  cases h : boxGet (ensure g r.p.boxes r.host) s with
  | none => exact isFalse (fun ⟨_, bx, h1, _⟩ => by cases h1)
  | some bx =>
    exact if c : s ≠ r.host ∧ counts g b s bx = true then isTrue ⟨c.1, bx, rfl, c.2⟩
      else isFalse (fun ⟨h0, bx', h1, h2⟩ => c ⟨h0, by cases h1; exact h2⟩)

/-- The identifier was created or removed earlier in the round. -/
def Round.Seen (st : Round) (s : Nat) : Prop := s ∈ st.created ∨ s ∈ st.removed

theorem mergeAccount_spec {g : Global} {b : Base} {s : Nat} {bx : Box} {st st' : Round} (h : mergeAccount g b s bx st = some st') :
    (counts g b s bx = false ∧ st' = st) ∨
    (counts g b s bx = true ∧ ¬ st.Seen s ∧ st'.u = { st.u with boxes := boxSet st.u.boxes s bx } ∧ ∀ s', st'.Seen s' ↔ s' = s ∨ st.Seen s') := by
  unfold mergeAccount at h
  cases c : counts g b s bx with
  | false => rw [c] at h; simp only [Bool.false_eq_true, if_false] at h; cases h; exact .inl ⟨rfl, rfl⟩
  | true =>
    rw [c] at h
    simp only [if_true] at h
    by_cases c2 : s ∈ st.created ∨ s ∈ st.removed
    · rw [if_pos c2] at h; cases h
    · rw [if_neg c2] at h
      right
      refine ⟨rfl, c2, ?_⟩
      by_cases c3 : bx.info.status = .added
      · rw [if_pos c3] at h; cases h
        refine ⟨rfl, fun s' => ?_⟩
        simp [Round.Seen, or_assoc]
      · rw [if_neg c3] at h; cases h
        refine ⟨rfl, fun s' => ?_⟩
        simp only [Round.Seen, List.mem_cons]
        constructor
        · rintro (h | h | h) <;> simp [h]
        · rintro (h | h | h) <;> simp [h]

/-- What the loop over the accounts does: those in `ks` that count are taken over. -/
theorem mergeAccounts_spec {g : Global} {b : Base} {host : Nat} {bs : Boxes} : ∀ (ks : List Nat) (st st' : Round),
    mergeAccounts g b host bs ks st = some st' →
    (∃ bs', st'.u = { st.u with boxes := bs' }) ∧
    (∀ s, (s ∈ ks ∧ s ≠ host ∧ ∃ bx, boxGet bs s = some bx ∧ counts g b s bx = true) →
      ¬ st.Seen s ∧ st'.Seen s ∧ boxGet st'.u.boxes s = boxGet bs s) ∧
    (∀ s, ¬ (s ∈ ks ∧ s ≠ host ∧ ∃ bx, boxGet bs s = some bx ∧ counts g b s bx = true) →
      boxGet st'.u.boxes s = boxGet st.u.boxes s ∧ (st'.Seen s ↔ st.Seen s)) := by
  intro ks
  induction ks with
  | nil =>
    intro st st' h
    cases h
    exact ⟨⟨st.u.boxes, rfl⟩, fun s hs => absurd hs.1 (by simp), fun s _ => ⟨rfl, Iff.rfl⟩⟩
  | cons k ks ih =>
    intro st st' h
    unfold mergeAccounts at h
    by_cases ch : k = host
    · rw [if_pos ch] at h
      obtain ⟨i1, i2, i3⟩ := ih st st' h
      refine ⟨i1, fun s hs => ?_, fun s hs => ?_⟩
      · refine i2 s ⟨?_, hs.2⟩
        rcases List.mem_cons.1 hs.1 with d | d
        · exact absurd (d.trans ch) hs.2.1
        · exact d
      · exact i3 s (fun hs' => hs ⟨List.mem_cons_of_mem _ hs'.1, hs'.2⟩)
    · rw [if_neg ch] at h
      cases hb : boxGet bs k with
      | none =>
        rw [hb] at h
        obtain ⟨i1, i2, i3⟩ := ih st st' h
        refine ⟨i1, fun s hs => ?_, fun s hs => ?_⟩
        · refine i2 s ⟨?_, hs.2⟩
          rcases List.mem_cons.1 hs.1 with d | d
          · obtain ⟨bx, h1, _⟩ := hs.2.2
            rw [d, hb] at h1; cases h1
          · exact d
        · exact i3 s (fun hs' => hs ⟨List.mem_cons_of_mem _ hs'.1, hs'.2⟩)
      | some bx =>
        rw [hb] at h
        simp only at h
        cases h1 : mergeAccount g b k bx st with
        | none => rw [h1] at h; cases h
        | some st1 =>
          rw [h1] at h
          obtain ⟨⟨bs1, i1⟩, i2, i3⟩ := ih st1 st' h
          rcases mergeAccount_spec h1 with ⟨d1, d2⟩ | ⟨d1, d2, d3, d4⟩
          · subst d2
            refine ⟨⟨bs1, i1⟩, fun s hs => ?_, fun s hs => ?_⟩
            · refine i2 s ⟨?_, hs.2⟩
              rcases List.mem_cons.1 hs.1 with d | d
              · obtain ⟨bx', e1, e2⟩ := hs.2.2
                rw [d, hb] at e1; cases e1; rw [d, d1] at e2; cases e2
              · exact d
            · exact i3 s (fun hs' => hs ⟨List.mem_cons_of_mem _ hs'.1, hs'.2⟩)
          · -- `k` is taken over; no later occurrence of `k` counts
            have hk : ¬ (k ∈ ks ∧ k ≠ host ∧ ∃ bx, boxGet bs k = some bx ∧ counts g b k bx = true) := fun hk =>
              (i2 k hk).1 ((d4 k).2 (.inl rfl))
            refine ⟨⟨bs1, by rw [i1, d3]⟩, fun s hs => ?_, fun s hs => ?_⟩
            · by_cases c : s = k
              · subst c
                obtain ⟨j1, j2⟩ := i3 s hk
                refine ⟨d2, j2.2 ((d4 s).2 (.inl rfl)), ?_⟩
                rw [j1, d3, hb]
                show boxGet (boxSet st.u.boxes s bx) s = _
                rw [boxGet_set, if_pos rfl]
              · obtain ⟨j1, j2, j3⟩ := i2 s ⟨(List.mem_cons.1 hs.1).resolve_left c, hs.2⟩
                exact ⟨fun hse => j1 ((d4 s).2 (.inr hse)), j2, j3⟩
            · have c : s ≠ k := fun c => hs (by subst c; exact ⟨List.mem_cons_self .., ch, bx, hb, d1⟩)
              obtain ⟨j1, j2⟩ := i3 s (fun hs' => hs ⟨List.mem_cons_of_mem _ hs'.1, hs'.2⟩)
              refine ⟨?_, j2.trans ?_⟩
              · rw [j1, d3]
                show boxGet (boxSet st.u.boxes k bx) s = _
                rw [boxGet_set, if_neg c]
              · rw [d4 s]; simp [c]

theorem boxGet_mem {bs : Boxes} {s : Nat} {b : Box} (h : boxGet bs s = some b) : s ∈ bs.map (·.1) := by
  induction bs with
  | nil => cases h
  | cons e bs ih =>
    obtain ⟨k, b'⟩ := e
    unfold boxGet at h
    by_cases c : k = s
    · simp [c]
    · rw [if_neg c] at h; simp [ih h]

theorem mem_boxKeys {bs : Boxes} {s : Nat} {b : Box} (h : boxGet bs s = some b) : s ∈ boxKeys bs :=
  List.mem_eraseDups.2 (boxGet_mem h)

/-- One merge: what happens to every account and to the sets of identifiers. -/
theorem mergeOne_spec {g : Global} {b : Base} {st st' : Round} {r : AccResult} (h : mergeOne g b st r = some st') :
    (∃ hb, boxGet (ensure g st.u.boxes r.host) r.host = some hb ∧ hb.info.status = .removed ∧
      st' = { st with u := { st.u with boxes := ensure g st.u.boxes r.host } }) ∨
    (∃ hb bx u, boxGet (ensure g st.u.boxes r.host) r.host = some hb ∧ hb.info.status ≠ .removed ∧
      mergePrivileges b r.host st.u r.p = some u ∧ (∃ bs', st'.u = { u with boxes := bs' }) ∧
      boxGet (ensure g r.p.boxes r.host) r.host = some bx ∧
      (∀ s, st'.Seen s ↔ Touches g b r s ∨ st.Seen s) ∧ (∀ s, Touches g b r s → ¬ st.Seen s) ∧
      (∀ s, infoAt g st'.u.boxes s =
        if s = r.host ∨ Touches g b r s then infoAt g r.p.boxes s else infoAt g st.u.boxes s)) := by
  unfold mergeOne at h
  dsimp only at h
  cases h1 : boxGet (ensure g st.u.boxes r.host) r.host with
  | none => rw [h1] at h; cases h
  | some hb =>
    rw [h1] at h
    simp only at h
    by_cases c : hb.info.status = .removed
    · rw [if_pos c] at h; cases h
      exact .inl ⟨hb, rfl, c, rfl⟩
    · rw [if_neg c] at h
      cases h2 : mergePrivileges b r.host st.u r.p with
      | none => rw [h2] at h; cases h
      | some u =>
        rw [h2] at h
        simp only at h
        cases h3 : boxGet (ensure g r.p.boxes r.host) r.host with
        | none => rw [h3] at h; cases h
        | some bx =>
          rw [h3] at h
          simp only at h
          obtain ⟨⟨bs', i1⟩, i2, i3⟩ := mergeAccounts_spec _ _ _ h
          right
          refine ⟨hb, bx, u, rfl, c, rfl, ⟨bs', i1⟩, rfl, ?_⟩
          have key : ∀ s, Touches g b r s ↔ (s ∈ boxKeys (ensure g r.p.boxes r.host) ∧ s ≠ r.host ∧
              ∃ bx, boxGet (ensure g r.p.boxes r.host) s = some bx ∧ counts g b s bx = true) := by
            intro s
            constructor
            · rintro ⟨t1, bx, t2, t3⟩; exact ⟨mem_boxKeys t2, t1, bx, t2, t3⟩
            · rintro ⟨_, t⟩; exact t
          refine ⟨fun s => ?_, fun s hs => (i2 s ((key s).1 hs)).1, fun s => ?_⟩
          · by_cases t : Touches g b r s
            · exact ⟨fun _ => .inl t, fun _ => (i2 s ((key s).1 t)).2.1⟩
            · exact (i3 s (fun t' => t ((key s).2 t'))).2.trans ⟨.inr, fun h => h.resolve_left t⟩
          · by_cases t : Touches g b r s
            · rw [if_pos (.inr t), ← infoAt_ensure g r.p.boxes r.host s]
              unfold infoAt; rw [(i2 s ((key s).1 t)).2.2]
            · have e := (i3 s (fun t' => t ((key s).2 t'))).1
              have e2 : infoAt g st'.u.boxes s = infoAt g (boxSet (ensure g st.u.boxes r.host) r.host bx) s := by
                unfold infoAt; rw [e]
              rw [e2, infoAt_set]
              by_cases d : s = r.host
              · rw [if_pos d, if_pos (.inl d), ← infoAt_ensure g r.p.boxes r.host s, d, infoAt_some h3]
              · rw [if_neg d, if_neg (by simp [d, t]), infoAt_ensure]

end Fastroll.Svc
