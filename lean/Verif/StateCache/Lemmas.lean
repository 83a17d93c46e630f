import Verif.StateCache.Spec
namespace Fastroll.StateCache
open Spec (Abs Pend)

variable {K V : Type} [DecidableEq K]

@[simp] theorem upd_self {A : Type} (f : K → A) (k : K) (a : A) : upd f k a k = a := by simp [upd]

theorem upd_ne {A : Type} (f : K → A) {k k' : K} (a : A) (h : k' ≠ k) : upd f k a k' = f k' := by
  simp [upd, h]

theorem mem_addKey {l : List K} {k x : K} : x ∈ addKey l k ↔ x = k ∨ x ∈ l := by
  unfold addKey
  split
  · constructor
    · exact Or.inr
    · rintro (rfl | h)
      · assumption
      · exact h
  · simp

theorem nodup_addKey {l : List K} {k : K} (h : l.Nodup) : (addKey l k).Nodup := by
  unfold addKey
  split
  · exact h
  · exact List.nodup_cons.2 ⟨‹_›, h⟩

/-! ### Folds over keys that touch one key at a time -/

theorem rollbackStep_ne (c : K → Option (Entry V)) {k k' : K} (h : k' ≠ k) :
    rollbackStep c k k' = c k' := upd_ne _ _ h

theorem rollbackStep_congr (c c' : K → Option (Entry V)) {k : K} (h : c k = c' k) :
    rollbackStep c k k = rollbackStep c' k k := by
  unfold rollbackStep
  rw [upd_self, upd_self, h]

theorem rollback_fold (l : List K) (hn : l.Nodup) (c : K → Option (Entry V)) (k : K) :
    (l.foldl rollbackStep c) k = if k ∈ l then rollbackStep c k k else c k := by
  induction l generalizing c with
  | nil => simp
  | cons x xs ih =>
    have hn' := List.nodup_cons.1 hn
    rw [List.foldl_cons, ih hn'.2]
    by_cases hk : k = x
    · subst hk
      rw [if_neg hn'.1, if_pos (List.mem_cons_self ..)]
    · by_cases hm : k ∈ xs
      · rw [if_pos hm, if_pos (List.mem_cons_of_mem _ hm)]
        exact rollbackStep_congr _ _ (rollbackStep_ne _ hk)
      · have : ¬ k ∈ x :: xs := by simp [hk, hm]
        rw [if_neg hm, if_neg this]
        exact rollbackStep_ne _ hk

theorem deferredStep_ne (c : K → Option (Entry V)) {p : K × Entry V} {k' : K} (h : k' ≠ p.1) :
    deferredStep c p k' = c k' := upd_ne _ _ h

theorem directStep_ne (c : K → Option (Entry V)) {p : K × Entry V} {k' : K} (h : k' ≠ p.1) :
    directStep c p k' = c k' := upd_ne _ _ h

theorem deferred_fold_not_mem (l : List (K × Entry V)) (c : K → Option (Entry V)) (k : K)
    (h : ∀ p ∈ l, k ≠ p.1) : (l.foldl deferredStep c) k = c k := by
  induction l generalizing c with
  | nil => rfl
  | cons p ps ih =>
    rw [List.foldl_cons, ih _ (fun q hq => h q (List.mem_cons_of_mem _ hq)),
      deferredStep_ne _ (h p (List.mem_cons_self ..))]

theorem deferred_fold_mem (l : List (K × Entry V)) (c : K → Option (Entry V)) (k : K) (e : Entry V)
    (hn : (l.map Prod.fst).Nodup) (h : (k, e) ∈ l) :
    (l.foldl deferredStep c) k = installed e := by
  induction l generalizing c with
  | nil => cases h
  | cons p ps ih =>
    rw [List.map_cons, List.nodup_cons] at hn
    rw [List.foldl_cons]
    rcases List.mem_cons.1 h with h | h
    · subst h
      rw [deferred_fold_not_mem]
      · exact upd_self _ _ _
      · rintro q hq rfl
        exact hn.1 (List.mem_map.2 ⟨q, hq, rfl⟩)
    · exact ih _ hn.2 h

theorem direct_fold_not_mem (l : List (K × Entry V)) (c : K → Option (Entry V)) (k : K)
    (h : ∀ p ∈ l, k ≠ p.1) : (l.foldl directStep c) k = c k := by
  induction l generalizing c with
  | nil => rfl
  | cons p ps ih =>
    rw [List.foldl_cons, ih _ (fun q hq => h q (List.mem_cons_of_mem _ hq)),
      directStep_ne _ (h p (List.mem_cons_self ..))]

theorem direct_fold_mem (l : List (K × Entry V)) (c : K → Option (Entry V)) (k : K) (e : Entry V)
    (hn : (l.map Prod.fst).Nodup) (h : (k, e) ∈ l) (hc : c k = some e) :
    (l.foldl directStep c) k = if e.status = .dirty .remove then none else some e.settle := by
  induction l generalizing c with
  | nil => cases h
  | cons p ps ih =>
    rw [List.map_cons, List.nodup_cons] at hn
    rw [List.foldl_cons]
    rcases List.mem_cons.1 h with h | h
    · subst h
      rw [direct_fold_not_mem]
      · unfold directStep settled; rw [upd_self, hc]; rfl
      · rintro q hq rfl
        exact hn.1 (List.mem_map.2 ⟨q, hq, rfl⟩)
    · refine ih _ hn.2 h ?_
      rw [directStep_ne, hc]
      rintro rfl
      exact hn.1 (List.mem_map.2 ⟨_, h, rfl⟩)

/-! ### The relation between the cache and the abstract state -/

/-- What a key looks like in the cache, given the committed value and the pending write. -/
def KeyRel (com : Option V) : Option (Pend V) → Option (Entry V) → Prop
  | none, none => True
  | none, some e => e.status = .clean ∧ e.value = e.snapshot ∧ com = some e.snapshot
  | some (.added v), some e => e.status = .dirty .add ∧ e.value = v
  | some (.updated v), some e => e.status = .dirty .update ∧ e.value = v ∧ com = some e.snapshot
  | some .removed, some e => e.status = .dirty .remove ∧ com = some e.snapshot
  | some _, none => False

/-- A staged artifact and the map it makes committed. -/
structure ArtRel (com : K → Option V) (x : Artifact K V) (m : K → Option V) : Prop where
  db : x.db = m
  nodup : (x.entries.map Prod.fst).Nodup
  inn : ∀ k e, (k, e) ∈ x.entries →
    (e.status = .dirty .remove ∧ m k = none) ∨
    ((e.status = .dirty .add ∨ e.status = .dirty .update) ∧ m k = some e.value)
  out : ∀ k, (∀ p ∈ x.entries, k ≠ p.1) → m k = com k

/-- The relation. -/
structure Rel (s : St K V) (a : Abs K V) : Prop where
  db : s.db = a.committed
  key : ∀ k, KeyRel (a.committed k) (a.pend k) (s.cache k)
  dirty : ∀ k, k ∈ s.dirty ↔ (a.pend k).isSome = true
  nodup : s.dirty.Nodup
  touched : a.touched = !s.dirty.isEmpty
  clash : a.clash = true ↔ ∃ k v, a.pend k = some (.added v) ∧ (a.committed k).isSome = true
  len : s.staged.length = a.staged.length
  staged : ∀ (i : Nat) x m, s.staged[i]? = some x → a.staged[i]? = some m → ArtRel a.committed x m

theorem rel_opened (db : K → Option V) : Rel (opened db) (Spec.opened db) where
  db := rfl
  key := fun _ => trivial
  dirty := fun k => by simp [opened, Spec.opened]
  nodup := List.nodup_nil
  touched := rfl
  clash := by simp [Spec.opened]
  len := rfl
  staged := fun i x m h => by simp [opened] at h

/-- Filling the cache with a clean entry read from the database keeps the relation. -/
theorem rel_fill {s : St K V} {a : Abs K V} (h : Rel s a) {k : K} {v : V} (hc : s.cache k = none)
    (hv : s.db k = some v) : Rel (insertEntry s k (Entry.fresh v)) a := by
  have hk := h.key k
  rw [hc] at hk
  have hp : a.pend k = none := by
    cases hp : a.pend k with
    | none => rfl
    | some p => rw [hp] at hk; cases p <;> exact hk.elim
  refine ⟨h.db, fun k' => ?_, h.dirty, h.nodup, h.touched, h.clash, h.len, h.staged⟩
  show KeyRel _ _ (upd s.cache k _ k')
  by_cases hkk : k' = k
  · subst hkk
    rw [upd_self, hp]
    exact ⟨rfl, rfl, by rw [← h.db, hv]; rfl⟩
  · rw [upd_ne _ _ hkk]; exact h.key k'

theorem get_rel {s : St K V} {a : Abs K V} (h : Rel s a) (k : K) :
    Rel (get s k).1 a ∧ (get s k).2 = Spec.visible a k ∧
    ((get s k).2.isSome = true → ∃ e, (get s k).1.cache k = some e) := by
  have hk := h.key k
  unfold get Spec.visible
  cases hc : s.cache k with
  | some e =>
    rw [hc] at hk
    dsimp only
    refine ⟨h, ?_, fun _ => ⟨e, hc⟩⟩
    cases hp : a.pend k with
    | none =>
      rw [hp] at hk
      obtain ⟨h1, h2, h3⟩ := hk
      rw [h1, if_neg (by simp), h3, h2]
    | some p =>
      rw [hp] at hk
      cases p with
      | added v => obtain ⟨h1, h2⟩ := hk; rw [h1, if_neg (by simp), h2]; rfl
      | updated v => obtain ⟨h1, h2, _⟩ := hk; rw [h1, if_neg (by simp), h2]; rfl
      | removed => obtain ⟨h1, _⟩ := hk; rw [h1, if_pos rfl]; rfl
  | none =>
    rw [hc] at hk
    have hp : a.pend k = none := by
      cases hp : a.pend k with
      | none => rfl
      | some p => rw [hp] at hk; cases p <;> exact hk.elim
    rw [hp]
    dsimp only
    cases hd : s.db k with
    | none => exact ⟨h, by rw [← h.db, hd], fun hx => by simp at hx⟩
    | some v => exact ⟨rel_fill h hc hd, by rw [← h.db, hd], fun _ => ⟨Entry.fresh v, by simp [insertEntry]⟩⟩

theorem getClean_rel {s : St K V} {a : Abs K V} (h : Rel s a) (k : K) (hk' : Spec.isAdded a k = false) :
    Rel (getClean s k).1 a ∧ (getClean s k).2 = a.committed k := by
  have hk := h.key k
  unfold getClean
  cases hc : s.cache k with
  | some e =>
    rw [hc] at hk
    refine ⟨h, ?_⟩
    cases hp : a.pend k with
    | none => rw [hp] at hk; exact hk.2.2.symm
    | some p =>
      rw [hp] at hk
      cases p with
      | added v => simp [Spec.isAdded, hp] at hk'
      | updated v => exact hk.2.2.symm
      | removed => exact hk.2.symm
  | none =>
    dsimp only
    cases hd : s.db k with
    | none => exact ⟨h, by rw [← h.db, hd]⟩
    | some v => exact ⟨rel_fill h hc hd, by rw [← h.db, hd]⟩

/-- Writing a dirty entry and its pending write at the same time keeps the relation. -/
theorem rel_write {s : St K V} {a : Abs K V} (h : Rel s a) (k : K) (e : Entry V) (p : Pend V)
    (cl : Bool) (he : KeyRel (a.committed k) (some p) (some e))
    (hcl : cl = true ↔ ∃ k' v, upd a.pend k (some p) k' = some (.added v) ∧ (a.committed k').isSome = true) :
    Rel { s with cache := upd s.cache k (some e), dirty := addKey s.dirty k }
      { a with pend := upd a.pend k (some p), touched := true, clash := cl } where
  db := h.db
  key := fun k' => by
    show KeyRel _ (upd a.pend k _ k') (upd s.cache k _ k')
    by_cases hk : k' = k
    · subst hk; rw [upd_self, upd_self]; exact he
    · rw [upd_ne _ _ hk, upd_ne _ _ hk]; exact h.key k'
  dirty := fun k' => by
    show k' ∈ addKey s.dirty k ↔ (upd a.pend k _ k').isSome = true
    rw [mem_addKey]
    by_cases hk : k' = k
    · subst hk; simp
    · rw [upd_ne _ _ hk, h.dirty]; simp [hk]
  nodup := nodup_addKey h.nodup
  touched := by
    show true = !(addKey s.dirty k).isEmpty
    unfold addKey
    split
    · cases hd : s.dirty with
      | nil => simp [hd] at *
      | cons => rfl
    · rfl
  clash := hcl
  len := h.len
  staged := h.staged

theorem clash_keep {a : Abs K V} {s : St K V} (h : Rel s a) (k : K) (p : Pend V)
    (hp : (∃ v, p = .added v) ↔ Spec.isAdded a k = true) :
    a.clash = true ↔ ∃ k' v, upd a.pend k (some p) k' = some (.added v) ∧ (a.committed k').isSome = true := by
  rw [h.clash]
  constructor
  · rintro ⟨k', v, h1, h2⟩
    by_cases hk : k' = k
    · subst hk
      obtain ⟨w, hw⟩ := hp.2 (by simp [Spec.isAdded, h1])
      exact ⟨k', w, by rw [upd_self, hw], h2⟩
    · exact ⟨k', v, by rw [upd_ne _ _ hk]; exact h1, h2⟩
  · rintro ⟨k', v, h1, h2⟩
    by_cases hk : k' = k
    · subst hk
      rw [upd_self] at h1
      have := hp.1 ⟨v, by injection h1⟩
      unfold Spec.isAdded at this
      split at this
      · exact ⟨k', _, by assumption, h2⟩
      · cases this
    · rw [upd_ne _ _ hk] at h1
      exact ⟨k', v, h1, h2⟩

theorem add_rel {s : St K V} {a : Abs K V} (h : Rel s a) (k : K) (v : V) :
    Rel (add s k v).2 (Spec.step a (.add k v)).2 ∧ Out.ofRes (add s k v).1 = (Spec.step a (.add k v)).1 := by
  obtain ⟨h1, h2, _⟩ := get_rel h k
  unfold add Spec.step
  generalize get s k = g at h1 h2
  obtain ⟨s1, o⟩ := g
  dsimp only at h1 h2 ⊢
  subst h2
  cases hv : Spec.visible a k with
  | some w => dsimp only; simp only [Option.isSome_some, if_true]; exact ⟨h1, rfl⟩
  | none =>
    dsimp only
    rw [if_neg (by simp)]
    refine ⟨?_, rfl⟩
    refine rel_write h1 k ⟨v, v, .dirty .add⟩ (.added v) _ ⟨rfl, rfl⟩ ?_
    rw [Bool.or_eq_true, h1.clash]
    constructor
    · rintro (⟨k', w, h3, h4⟩ | h3)
      · by_cases hk : k' = k
        · subst hk; exact ⟨k', v, by rw [upd_self], h4⟩
        · exact ⟨k', w, by rw [upd_ne _ _ hk]; exact h3, h4⟩
      · exact ⟨k, v, by rw [upd_self], h3⟩
    · rintro ⟨k', w, h3, h4⟩
      by_cases hk : k' = k
      · subst hk; exact Or.inr h4
      · rw [upd_ne _ _ hk] at h3; exact Or.inl ⟨k', w, h3, h4⟩

theorem update_rel {s : St K V} {a : Abs K V} (h : Rel s a) (k : K) (f : V → Option V) :
    Rel (withMut s k .update f).2 (Spec.step a (.update k f)).2 ∧
    Out.ofRes (withMut s k .update f).1 = (Spec.step a (.update k f)).1 := by
  obtain ⟨h1, h2, h3⟩ := get_rel h k
  unfold withMut Spec.step
  generalize get s k = g at h1 h2 h3
  obtain ⟨s1, o⟩ := g
  dsimp only at h1 h2 h3 ⊢
  subst h2
  cases hv : Spec.visible a k with
  | none => exact ⟨h1, rfl⟩
  | some w =>
    dsimp only
    obtain ⟨e, he⟩ := h3 (by rw [hv]; rfl)
    rw [he]
    dsimp only
    have hk := h1.key k
    rw [he] at hk
    have hew : e.value = w := by
      unfold Spec.visible at hv
      cases hp : a.pend k with
      | none =>
        rw [hp] at hk hv
        obtain ⟨q1, q2, q3⟩ := hk
        dsimp only at hv
        rw [q3] at hv; injection hv with hv; rw [q2, hv]
      | some p =>
        rw [hp] at hk hv
        cases p with
        | added v => obtain ⟨q1, q2⟩ := hk; injection hv with hv; rw [q2, hv]
        | updated v => obtain ⟨q1, q2, _⟩ := hk; injection hv with hv; rw [q2, hv]
        | removed => cases hv
    unfold withMutEntry
    rw [hew]
    cases hf : f w with
    | none => exact ⟨h1, rfl⟩
    | some v' =>
      dsimp only
      by_cases ha : Spec.isAdded a k = true
      · have hp : ∃ u, a.pend k = some (.added u) := by
          unfold Spec.isAdded at ha; split at ha
          · exact ⟨_, by assumption⟩
          · cases ha
        obtain ⟨u, hp⟩ := hp
        rw [hp] at hk
        rw [if_neg (by simp [hk.1])]
        refine ⟨?_, rfl⟩
        have hmem : k ∈ s1.dirty := (h1.dirty k).2 (by rw [hp]; rfl)
        have := rel_write h1 k { e with value := v' } (.added v') a.clash ⟨hk.1, rfl⟩
          (clash_keep h1 k _ ⟨fun _ => ha, fun _ => ⟨_, rfl⟩⟩)
        have hadd : addKey s1.dirty k = s1.dirty := by unfold addKey; rw [if_pos hmem]
        rw [hadd] at this
        unfold Spec.overwrite
        rw [if_pos ha]
        exact this
      · have hst : e.status ≠ .dirty .add := by
          intro hst
          cases hp : a.pend k with
          | none => rw [hp] at hk; rw [hk.1] at hst; cases hst
          | some p =>
            rw [hp] at hk
            cases p with
            | added u => exact ha (by simp [Spec.isAdded, hp])
            | updated u => rw [hk.1] at hst; cases hst
            | removed => rw [hk.1] at hst; cases hst
        rw [if_pos (Or.inl hst)]
        refine ⟨?_, rfl⟩
        have := rel_write h1 k { e with value := v', status := .dirty .update } (.updated v') a.clash ?_
          (clash_keep h1 k _ ⟨fun ⟨_, hx⟩ => (by cases hx), fun hx => absurd hx ha⟩)
        · unfold Spec.overwrite
          rw [if_neg ha]
          exact this
        · refine ⟨rfl, rfl, ?_⟩
          cases hp : a.pend k with
          | none => rw [hp] at hk; exact hk.2.2
          | some p =>
            rw [hp] at hk
            cases p with
            | added u => exact absurd (by simp [Spec.isAdded, hp]) ha
            | updated u => exact hk.2.2
            | removed => exact hk.2

theorem remove_rel {s : St K V} {a : Abs K V} (h : Rel s a) (k : K) (hna : Spec.isAdded a k = false) :
    Rel (withMut s k .remove some).2 (Spec.step a (.remove k)).2 ∧
    Out.ofRes (withMut s k .remove some).1 = (Spec.step a (.remove k)).1 := by
  obtain ⟨h1, h2, h3⟩ := get_rel h k
  unfold withMut Spec.step
  generalize get s k = g at h1 h2 h3
  obtain ⟨s1, o⟩ := g
  dsimp only at h1 h2 h3 ⊢
  subst h2
  cases hv : Spec.visible a k with
  | none => exact ⟨h1, rfl⟩
  | some w =>
    dsimp only
    obtain ⟨e, he⟩ := h3 (by rw [hv]; rfl)
    rw [he]
    have hk := h1.key k
    rw [he] at hk
    unfold withMutEntry
    dsimp only
    rw [if_pos (Or.inr (by decide))]
    refine ⟨?_, rfl⟩
    refine rel_write h1 k { e with value := e.value, status := .dirty .remove } .removed a.clash ⟨rfl, ?_⟩
      (clash_keep h1 k _ ⟨fun ⟨_, hx⟩ => (by cases hx), fun hx => (by rw [hna] at hx; cases hx)⟩)
    show a.committed k = some e.snapshot
    cases hp : a.pend k with
    | none => rw [hp] at hk; exact hk.2.2
    | some p =>
      rw [hp] at hk
      cases p with
      | added u => simp [Spec.isAdded, hp] at hna
      | updated u => exact hk.2.2
      | removed => exact hk.2

theorem rollback_key {s : St K V} {a : Abs K V} (h : Rel s a) (k : K) :
    KeyRel (a.committed k) none ((rollback s).cache k) := by
  have hk := h.key k
  show KeyRel _ _ (s.dirty.foldl rollbackStep s.cache k)
  rw [rollback_fold _ h.nodup]
  cases hp : a.pend k with
  | none =>
    have hm : k ∉ s.dirty := fun hm => by
      have := (h.dirty k).1 hm
      rw [hp] at this; cases this
    rw [if_neg hm]
    rw [hp] at hk; exact hk
  | some p =>
    rw [if_pos ((h.dirty k).2 (by rw [hp]; rfl))]
    rw [hp] at hk
    unfold rollbackStep
    cases hc : s.cache k with
    | none => rw [hc] at hk; cases p <;> exact hk.elim
    | some e =>
      rw [hc] at hk
      cases p with
      | added v => rw [upd_self, Option.bind_some, rolledBack, hk.1]; trivial
      | updated v => rw [upd_self, Option.bind_some, rolledBack, hk.1]; exact ⟨rfl, rfl, hk.2.2⟩
      | removed => rw [upd_self, Option.bind_some, rolledBack, hk.1]; exact ⟨rfl, rfl, hk.2⟩

theorem rollback_rel {s : St K V} {a : Abs K V} (h : Rel s a) : Rel (rollback s) (Spec.reset a) where
  db := h.db
  key := fun k => rollback_key h k
  dirty := fun k => by simp [rollback, Spec.reset]
  nodup := List.nodup_nil
  touched := rfl
  clash := by simp [Spec.reset]
  len := h.len
  staged := h.staged

theorem evict_rel {s : St K V} {a : Abs K V} (h : Rel s a) (k : K) : Rel (evict s k) a := by
  unfold evict
  cases hc : s.cache k with
  | none => exact h
  | some e =>
    dsimp only
    by_cases hd : e.isDirty = true
    · rw [if_pos hd]; exact h
    · rw [if_neg hd]
      refine ⟨h.db, fun k' => ?_, h.dirty, h.nodup, h.touched, h.clash, h.len, h.staged⟩
      show KeyRel _ _ (upd s.cache k none k')
      by_cases hk : k' = k
      · subst hk
        rw [upd_self]
        have hk := h.key k'
        rw [hc] at hk
        cases hp : a.pend k' with
        | none => trivial
        | some p =>
          rw [hp] at hk
          cases p <;> simp [Entry.isDirty, hk.1] at hd
      · rw [upd_ne _ _ hk]; exact h.key k'

/-! ### Commits -/

theorem mem_collect {s : St K V} {a : Abs K V} (h : Rel s a) (k : K) (e : Entry V) :
    (k, e) ∈ collectDirty s ↔ (a.pend k).isSome = true ∧ s.cache k = some e := by
  unfold collectDirty
  rw [List.mem_filterMap]
  constructor
  · rintro ⟨k', h1, h2⟩
    cases hc : s.cache k' with
    | none => rw [hc] at h2; cases h2
    | some e' =>
      rw [hc] at h2
      injection h2 with h2
      injection h2 with h2 h3
      subst h2; subst h3
      exact ⟨(h.dirty k').1 h1, hc⟩
  · rintro ⟨h1, h2⟩
    exact ⟨k, (h.dirty k).2 h1, by rw [h2]; rfl⟩

theorem collect_fst {s : St K V} {a : Abs K V} (h : Rel s a) :
    (collectDirty s).map Prod.fst = s.dirty := by
  have : ∀ l : List K, (∀ k ∈ l, (s.cache k).isSome = true) →
      (l.filterMap fun k => (s.cache k).map fun e => (k, e)).map Prod.fst = l := by
    intro l hl
    induction l with
    | nil => rfl
    | cons x xs ih =>
      have hx := hl x (List.mem_cons_self ..)
      cases hc : s.cache x with
      | none => rw [hc] at hx; cases hx
      | some e =>
        rw [List.filterMap_cons]
        simp only [hc, Option.map_some]
        rw [List.map_cons, ih (fun k hk => hl k (List.mem_cons_of_mem _ hk))]
  refine this s.dirty fun k hk => ?_
  have h1 := (h.dirty k).1 hk
  have h2 := h.key k
  cases hc : s.cache k with
  | some e => rfl
  | none =>
    rw [hc] at h2
    cases hp : a.pend k with
    | none => rw [hp] at h1; cases h1
    | some p => rw [hp] at h2; cases p <;> exact h2.elim

/-- What one dirty entry asks of the stored value, and what it makes of it. -/
def Fits (old : Option V) (e : Entry V) (new : Option V) : Prop :=
  (e.status = .dirty .add ∧ old = none ∧ new = some e.value) ∨
  (e.status = .dirty .update ∧ old ≠ none ∧ new = some e.value) ∨
  (e.status = .dirty .remove ∧ old ≠ none ∧ new = none)

theorem writeEntry_fits {db : K → Option V} {k : K} {e : Entry V} {new : Option V}
    (h : Fits (db k) e new) : writeEntry db k e = .ok (upd db k new) := by
  unfold writeEntry
  rcases h with ⟨h1, h2, h3⟩ | ⟨h1, h2, h3⟩ | ⟨h1, h2, h3⟩
  · rw [h1]; dsimp only; rw [h2, h3]
  · rw [h1]; dsimp only
    cases hd : db k with
    | none => exact absurd hd h2
    | some _ => rw [h3]
  · rw [h1]; dsimp only
    cases hd : db k with
    | none => exact absurd hd h2
    | some _ => rw [h3]

theorem writeAll_fits (l : List (K × Entry V)) (db m : K → Option V)
    (hn : (l.map Prod.fst).Nodup) (h : ∀ k e, (k, e) ∈ l → Fits (db k) e (m k))
    (ho : ∀ k, (∀ p ∈ l, k ≠ p.1) → m k = db k) : writeAll db l = .ok m := by
  induction l generalizing db with
  | nil =>
    unfold writeAll
    have : m = db := funext fun k => ho k (fun p hp => by cases hp)
    rw [this]
  | cons p ps ih =>
    obtain ⟨k, e⟩ := p
    rw [List.map_cons, List.nodup_cons] at hn
    unfold writeAll
    rw [writeEntry_fits (h k e (List.mem_cons_self ..))]
    dsimp only
    refine ih _ hn.2 ?_ ?_
    · intro k' e' hm
      have hk : k' ≠ k := by rintro rfl; exact hn.1 (List.mem_map.2 ⟨_, hm, rfl⟩)
      rw [upd_ne _ _ hk]
      exact h k' e' (List.mem_cons_of_mem _ hm)
    · intro k' hk'
      by_cases hk : k' = k
      · subst hk; rw [upd_self]
      · rw [upd_ne _ _ hk]
        refine ho k' fun q hq => ?_
        rcases List.mem_cons.1 hq with hq | hq
        · subst hq; exact hk
        · exact hk' q hq

/-- A stored key among the added ones stops the commit with the panic, whatever the order,
provided the other entries fit. -/
theorem writeAll_clash (l : List (K × Entry V)) (db : K → Option V)
    (hn : (l.map Prod.fst).Nodup)
    (h : ∀ k e, (k, e) ∈ l → (∃ new, Fits (db k) e new) ∨ (e.status = .dirty .add ∧ db k ≠ none))
    (hx : ∃ k e, (k, e) ∈ l ∧ e.status = .dirty .add ∧ db k ≠ none) :
    writeAll db l = .error .panic := by
  induction l generalizing db with
  | nil => obtain ⟨k, e, hm, _⟩ := hx; cases hm
  | cons p ps ih =>
    obtain ⟨k, e⟩ := p
    rw [List.map_cons, List.nodup_cons] at hn
    unfold writeAll
    have bad : ∀ e : Entry V, e.status = .dirty .add → db k ≠ none → writeEntry db k e = .error .panic := by
      intro e h1 h2
      unfold writeEntry
      rw [h1]; dsimp only
      cases hd : db k with
      | none => exact absurd hd h2
      | some _ => rfl
    rcases h k e (List.mem_cons_self ..) with ⟨new, hf⟩ | ⟨h1, h2⟩
    · rw [writeEntry_fits hf]
      dsimp only
      have stay : ∀ k' e', (k', e') ∈ ps → upd db k new k' = db k' := fun k' e' hm =>
        upd_ne _ _ (by rintro rfl; exact hn.1 (List.mem_map.2 ⟨_, hm, rfl⟩))
      refine ih _ hn.2 ?_ ?_
      · intro k' e' hm
        rw [stay k' e' hm]
        exact h k' e' (List.mem_cons_of_mem _ hm)
      · obtain ⟨k', e', hm, h3, h4⟩ := hx
        rcases List.mem_cons.1 hm with hm | hm
        · injection hm with hm1 hm2
          subst hm1; subst hm2
          rcases hf with ⟨_, h5, _⟩ | ⟨h5, _⟩ | ⟨h5, _⟩
          · exact absurd h5 h4
          · rw [h5] at h3; cases h3
          · rw [h5] at h3; cases h3
        · exact ⟨k', e', hm, h3, by rw [stay k' e' hm]; exact h4⟩
    · rw [bad e h1 h2]

/-- A pending write that is not a re-addition fits the committed map. -/
theorem fits_of_key {com : Option V} {p : Pend V} {e : Entry V} (h : KeyRel com (some p) (some e))
    (hc : ∀ v, p = .added v → com = none) : Fits com e p.see := by
  cases p with
  | added v => exact Or.inl ⟨h.1, hc v rfl, by rw [h.2]; rfl⟩
  | updated v => exact Or.inr (Or.inl ⟨h.1, by rw [h.2.2]; simp, by rw [h.2.1]; rfl⟩)
  | removed => exact Or.inr (Or.inr ⟨h.1, by rw [h.2]; simp, rfl⟩)

theorem writeAll_rel {s : St K V} {a : Abs K V} (h : Rel s a) :
    writeAll s.db (collectDirty s) =
      if a.clash = true then .error .panic else .ok (Spec.visible a) := by
  have hn : ((collectDirty s).map Prod.fst).Nodup := by rw [collect_fst h]; exact h.nodup
  by_cases hc : a.clash = true
  · rw [if_pos hc]
    refine writeAll_clash _ _ hn ?_ ?_
    · intro k e hm
      obtain ⟨h1, h2⟩ := (mem_collect h k e).1 hm
      have hk := h.key k
      rw [h2] at hk
      cases hp : a.pend k with
      | none => rw [hp] at h1; cases h1
      | some p =>
        rw [hp] at hk
        rw [h.db]
        by_cases hx : ∃ v, p = .added v ∧ a.committed k ≠ none
        · obtain ⟨v, hv, hne⟩ := hx
          subst hv
          exact Or.inr ⟨hk.1, hne⟩
        · refine Or.inl ⟨_, fits_of_key hk fun v hv => ?_⟩
          cases hcm : a.committed k with
          | none => rfl
          | some w => exact absurd ⟨v, hv, by rw [hcm]; simp⟩ hx
    · obtain ⟨k, v, h1, h2⟩ := h.clash.1 hc
      have hk := h.key k
      rw [h1] at hk
      cases hcache : s.cache k with
      | none => rw [hcache] at hk; exact hk.elim
      | some e =>
        rw [hcache] at hk
        refine ⟨k, e, (mem_collect h k e).2 ⟨by rw [h1]; rfl, hcache⟩, hk.1, ?_⟩
        rw [h.db]
        intro hx; rw [hx] at h2; cases h2
  · rw [if_neg hc]
    refine writeAll_fits _ _ _ hn ?_ ?_
    · intro k e hm
      obtain ⟨h1, h2⟩ := (mem_collect h k e).1 hm
      have hk := h.key k
      rw [h2] at hk
      cases hp : a.pend k with
      | none => rw [hp] at h1; cases h1
      | some p =>
        rw [hp] at hk
        have := fits_of_key hk fun v hv => by
          cases hcm : a.committed k with
          | none => rfl
          | some w => exact absurd (h.clash.2 ⟨k, v, by rw [hp, hv], by rw [hcm]; rfl⟩) hc
        rw [h.db]
        unfold Spec.visible
        rw [hp]
        exact this
    · intro k hk
      unfold Spec.visible
      cases hp : a.pend k with
      | none => rw [h.db]
      | some p =>
        have h1 := h.key k
        rw [hp] at h1
        cases hcache : s.cache k with
        | none => rw [hcache] at h1; cases p <;> exact h1.elim
        | some e => exact absurd rfl (hk (k, e) ((mem_collect h k e).2 ⟨by rw [hp]; rfl, hcache⟩))

theorem collect_nil {s : St K V} {a : Abs K V} (h : Rel s a) :
    collectDirty s = [] ↔ a.touched = false := by
  rw [h.touched]
  have := collect_fst h
  constructor
  · intro hc
    rw [hc] at this
    rw [← this]; rfl
  · intro hd
    have hd : s.dirty = [] := by simpa using hd
    rw [hd] at this
    exact List.map_eq_nil_iff.1 this

theorem visible_reset {a : Abs K V} (k : K) : Spec.visible (Spec.reset a) k = a.committed k := rfl

theorem commit_rel {s : St K V} {a : Abs K V} (h : Rel s a) (io : Bool) (hs : a.staged = []) :
    Rel (commit s io).2 (Spec.step a (.commit io)).2 ∧
    Out.ofRes (commit s io).1 = (Spec.step a (.commit io)).1 := by
  have hw := writeAll_rel h
  have hcn := collect_nil h
  have hmc := mem_collect h
  have hfst := collect_fst h
  unfold commit
  simp only [Spec.step]
  generalize collectDirty s = l at hw hcn hmc hfst
  cases l with
  | nil => rw [if_pos (hcn.1 rfl)]; exact ⟨h, rfl⟩
  | cons p ps =>
    have ht : ¬ a.touched = false := fun ht => by cases hcn.2 ht
    rw [if_neg ht]
    dsimp only
    rw [hw]
    by_cases hc : a.clash = true
    · rw [if_pos hc, if_pos hc]; exact ⟨h, rfl⟩
    · rw [if_neg hc, if_neg hc]
      dsimp only
      cases io with
      | false => exact ⟨h, rfl⟩
      | true =>
        rw [if_pos rfl, if_pos rfl]
        refine ⟨⟨rfl, fun k => ?_, fun k => by simp [Spec.reset], List.nodup_nil, rfl, by simp [Spec.reset], ?_, ?_⟩, rfl⟩
        · show KeyRel (Spec.visible a k) none ((p :: ps).foldl directStep s.cache k)
          have hk := h.key k
          cases hp : a.pend k with
          | none =>
            rw [direct_fold_not_mem]
            · unfold Spec.visible
              rw [hp] at hk ⊢
              exact hk
            · intro q hq hkq
              have := ((hmc q.1 q.2).1 hq).1
              rw [← hkq, hp] at this
              cases this
          | some w =>
            cases hcache : s.cache k with
            | none => rw [hp, hcache] at hk; cases w <;> exact hk.elim
            | some e =>
              have hm : (k, e) ∈ p :: ps := (hmc k e).2 ⟨by rw [hp]; rfl, hcache⟩
              rw [direct_fold_mem _ _ k e (by rw [hfst]; exact h.nodup) hm hcache]
              rw [hp, hcache] at hk
              unfold Spec.visible
              rw [hp]
              dsimp only
              cases w with
              | added v =>
                rw [hk.1, if_neg (by simp)]
                exact ⟨rfl, rfl, by show some v = some e.value; rw [hk.2]⟩
              | updated v =>
                rw [hk.1, if_neg (by simp)]
                exact ⟨rfl, rfl, by show some v = some e.value; rw [hk.2.1]⟩
              | removed => rw [hk.1, if_pos rfl]; trivial
        · exact h.len
        · intro i x m h1 h2
          have : (Spec.reset a).staged = [] := hs
          dsimp only at h2
          rw [this] at h2
          simp at h2

theorem stage_rel {s : St K V} {a : Abs K V} (h : Rel s a) :
    Rel (stage s).2 (Spec.step a .stage).2 ∧ Out.ofRes (stage s).1 = (Spec.step a .stage).1 := by
  have hw := writeAll_rel h
  have hcn := collect_nil h
  have hmc := mem_collect h
  have hfst := collect_fst h
  unfold stage
  simp only [Spec.step]
  generalize collectDirty s = l at hw hcn hmc hfst
  cases l with
  | nil => rw [if_pos (hcn.1 rfl)]; exact ⟨h, rfl⟩
  | cons p ps =>
    have ht : ¬ a.touched = false := fun ht => by cases hcn.2 ht
    rw [if_neg ht]
    dsimp only
    rw [hw]
    by_cases hc : a.clash = true
    · rw [if_pos hc, if_pos hc]; exact ⟨h, rfl⟩
    · rw [if_neg hc, if_neg hc]
      dsimp only
      have hr := rollback_rel h
      refine ⟨⟨hr.db, hr.key, hr.dirty, hr.nodup, hr.touched, hr.clash, ?_, ?_⟩, rfl⟩
      · show (_ :: s.staged).length = (_ :: a.staged).length
        rw [List.length_cons, List.length_cons, h.len]
      · intro i x m h1 h2
        cases i with
        | succ j => exact h.staged j x m h1 h2
        | zero =>
          have h1 : some (⟨p :: ps, Spec.visible a⟩ : Artifact K V) = some x := h1
          have h2 : some (Spec.visible a) = some m := h2
          injection h1 with h1
          injection h2 with h2
          subst h1; subst h2
          refine ⟨rfl, by rw [hfst]; exact h.nodup, ?_, ?_⟩
          · intro k e hm
            obtain ⟨q1, q2⟩ := (hmc k e).1 hm
            have hk := h.key k
            rw [q2] at hk
            unfold Spec.visible
            cases hp : a.pend k with
            | none => rw [hp] at q1; cases q1
            | some w =>
              rw [hp] at hk
              cases w with
              | added v => exact Or.inr ⟨Or.inl hk.1, by rw [hk.2]; rfl⟩
              | updated v => exact Or.inr ⟨Or.inr hk.1, by rw [hk.2.1]; rfl⟩
              | removed => exact Or.inl ⟨hk.1, rfl⟩
          · intro k hk
            unfold Spec.visible
            cases hp : a.pend k with
            | none => rfl
            | some w =>
              have h1 := h.key k
              rw [hp] at h1
              cases hcache : s.cache k with
              | none => rw [hcache] at h1; cases w <;> exact h1.elim
              | some e => exact absurd rfl (hk (k, e) ((hmc k e).2 ⟨by rw [hp]; rfl, hcache⟩))

theorem finalize_rel {s : St K V} {a : Abs K V} (h : Rel s a) (i : Nat) (ht : a.touched = false) :
    Rel (finalize s i).2 (Spec.step a (.finalize i)).2 ∧
    Out.ofRes (finalize s i).1 = (Spec.step a (.finalize i)).1 := by
  have hpend : ∀ k, a.pend k = none := by
    intro k
    have hd : s.dirty = [] := by
      have := h.touched
      rw [ht] at this
      simpa using this.symm
    cases hp : a.pend k with
    | none => rfl
    | some p =>
      have := (h.dirty k).2 (by rw [hp]; rfl)
      rw [hd] at this; cases this
  unfold finalize
  simp only [Spec.step]
  cases hx : s.staged[i]? with
  | none =>
    have : a.staged[i]? = none := by
      rw [List.getElem?_eq_none_iff] at hx ⊢
      rw [← h.len]; exact hx
    rw [this]
    exact ⟨h, rfl⟩
  | some x =>
    have hi : i < a.staged.length := by
      rw [← h.len]
      exact (List.getElem?_eq_some_iff.1 hx).1
    have hm : a.staged[i]? = some a.staged[i] := List.getElem?_eq_getElem hi
    rw [hm]
    generalize a.staged[i] = m at hm
    have hart := h.staged i x m hx hm
    refine ⟨⟨hart.db, fun k => ?_, h.dirty, h.nodup, h.touched, ?_, rfl, ?_⟩, rfl⟩
    · show KeyRel (m k) (a.pend k) (x.entries.foldl deferredStep s.cache k)
      rw [hpend k]
      by_cases hin : ∃ e, (k, e) ∈ x.entries
      · obtain ⟨e, he⟩ := hin
        rw [deferred_fold_mem _ _ k e hart.nodup he]
        rcases hart.inn k e he with ⟨h1, h2⟩ | ⟨h1 | h1, h2⟩
        · rw [installed, h1]; trivial
        · rw [installed, h1]; exact ⟨rfl, rfl, h2⟩
        · rw [installed, h1]; exact ⟨rfl, rfl, h2⟩
      · have hno : ∀ p ∈ x.entries, k ≠ p.1 := by
          rintro p hp rfl
          exact hin ⟨p.2, hp⟩
        rw [deferred_fold_not_mem _ _ _ hno, hart.out k hno]
        have := h.key k
        rw [hpend k] at this
        exact this
    · have hcl := h.clash
      show a.clash = true ↔ ∃ k v, a.pend k = some (.added v) ∧ (m k).isSome = true
      rw [hcl]
      constructor
      · rintro ⟨k, v, h1, _⟩; rw [hpend k] at h1; cases h1
      · rintro ⟨k, v, h1, _⟩; rw [hpend k] at h1; cases h1
    · intro j y m' h1
      simp at h1

theorem step_rel {s : St K V} {a : Abs K V} (h : Rel s a) (o : Op K V) (ho : Spec.allowed a o = true) :
    Rel (step s o).2 (Spec.step a o).2 ∧ (step s o).1 = (Spec.step a o).1 := by
  cases o with
  | get k => exact ⟨(get_rel h k).1, by show Out.value _ = Out.value _; rw [(get_rel h k).2.1]⟩
  | getClean k =>
    have hk : Spec.isAdded a k = false := by simpa [Spec.allowed] using ho
    exact ⟨(getClean_rel h k hk).1, by show Out.value _ = Out.value _; rw [(getClean_rel h k hk).2]⟩
  | add k v => exact add_rel h k v
  | update k f => exact update_rel h k f
  | remove k => exact remove_rel h k (by simpa [Spec.allowed] using ho)
  | commit io => exact commit_rel h io (by simpa [Spec.allowed] using ho)
  | stage => exact stage_rel h
  | finalize i => exact finalize_rel h i (by simpa [Spec.allowed] using ho)
  | rollback => exact ⟨rollback_rel h, rfl⟩
  | evict k => exact ⟨evict_rel h k, rfl⟩

theorem run_rel {s : St K V} {a : Abs K V} (h : Rel s a) (os : List (Op K V))
    (ho : Spec.legal a os = true) :
    Rel (run s os).2 (Spec.run a os).2 ∧ (run s os).1 = (Spec.run a os).1 := by
  induction os generalizing s a with
  | nil => exact ⟨h, rfl⟩
  | cons o os ih =>
    unfold Spec.legal at ho
    rw [Bool.and_eq_true] at ho
    have h1 := step_rel h o ho.1
    have h2 := ih h1.1 ho.2
    unfold run Spec.run
    exact ⟨h2.1, by rw [h1.2, h2.2]⟩

end Fastroll.StateCache
