import Verif.StateCache.Lemmas
/-
C30: state cache transactions.
-/
namespace Fastroll.StateCache
variable {K V : Type} [DecidableEq K]

/-- A stored map for the examples: keys 1 and 2 hold 10 and 20. -/
def exDb : Nat → Option Nat := fun k => if k = 1 then some 10 else if k = 2 then some 20 else none

/-- A history with reads, writes, an eviction, a failed commit, a staged block and a rollback. -/
def exOps : List (Op Nat Nat) :=
  [.get 1, .update 1 (fun v => some (v + 1)), .get 1, .getClean 1, .evict 2, .remove 2, .add 2 21,
   .get 2, .rollback, .get 2, .add 3 30, .update 3 (fun v => some (v + 5)), .commit false, .get 3,
   .stage, .get 3, .remove 1, .stage, .get 1, .finalize 0, .get 1, .get 3, .update 2 (fun _ => none),
   .add 2 0, .remove 2, .commit true, .get 2, .rollback, .getClean 2]

/-- **C30** Through every legal history of reads, pre-state reads, additions, updates, removals,
commits, staged and finalised blocks, rollbacks and evictions, from any stored map, each operation
answers what the transaction without a cache answers: reads see the latest uncommitted write,
pre-state reads the last committed value, and evictions change nothing.  Partial: pre-state reads
and removals of keys added since the last commit are excluded; for those see the three theorems
with witnesses below. -/
theorem C30_answers_partial (db : K → Option V) (os : List (Op K V))
    (h : Spec.legal (Spec.opened db) os = true) :
    (run (opened db) os).1 = (Spec.run (Spec.opened db) os).1 :=
  (run_rel (rel_opened db) os h).2

example : Spec.legal (Spec.opened exDb) exOps = true ∧
    ((run (opened exDb) exOps).1 =
      [.value (some 10), .done, .value (some 11), .value (some 10), .done, .done, .done,
       .value (some 21), .done, .value (some 20), .done, .done, .err .commit, .value (some 35),
       .done, .value none, .done, .done, .value (some 10), .done, .value none, .value none,
       .err .closure, .err .exists, .done, .done, .value none, .done, .value none]) := by
  decide +kernel

/-- **C30** After every legal history a rollback leaves no pending write, and every read and every
pre-state read returns exactly what is stored. -/
theorem C30_rollback_partial (db : K → Option V) (os : List (Op K V))
    (h : Spec.legal (Spec.opened db) os = true) (k : K) :
    (get (rollback (run (opened db) os).2) k).2 = (run (opened db) os).2.db k ∧
    (getClean (rollback (run (opened db) os).2) k).2 = (run (opened db) os).2.db k ∧
    (rollback (run (opened db) os).2).dirty = [] := by
  have hr := (run_rel (rel_opened db) os h).1
  have hb := rollback_rel hr
  refine ⟨?_, ?_, rfl⟩
  · rw [(get_rel hb k).2.1, visible_reset, hr.db]
  · rw [(getClean_rel hb k rfl).2, hr.db]; rfl

example : Spec.legal (Spec.opened exDb) (exOps.take 7) = true ∧
    (get (run (opened exDb) (exOps.take 7)).2 2).2 = some 21 ∧
    (get (rollback (run (opened exDb) (exOps.take 7)).2) 2).2 = some 20 := by
  decide +kernel

/-- **C30** After every legal history with no block staged, a commit that succeeds stores exactly
what was visible at every key, changes no read, and leaves nothing pending; a commit that fails
changes nothing. -/
theorem C30_commit_partial (db : K → Option V) (os : List (Op K V)) (io : Bool)
    (h : Spec.legal (Spec.opened db) (os ++ [.commit io]) = true) :
    let s := (run (opened db) os).2
    ((commit s io).1 = .ok () ∧ (∀ k, (commit s io).2.db k = (get s k).2) ∧
      (∀ k, (get (commit s io).2 k).2 = (get s k).2) ∧ (commit s io).2.dirty = []) ∨
    ((∃ e, (commit s io).1 = .error e) ∧ (commit s io).2 = s) := by
  dsimp only
  have split : ∀ (l : List (Op K V)) (a : Spec.Abs K V), Spec.legal a (l ++ [.commit io]) = true →
      Spec.legal a l = true ∧ Spec.allowed (Spec.run a l).2 (.commit io) = true := by
    intro l
    induction l with
    | nil =>
      intro a hl
      refine ⟨rfl, ?_⟩
      simpa [Spec.legal, Spec.run] using hl
    | cons o l ih =>
      intro a hl
      rw [List.cons_append, Spec.legal, Bool.and_eq_true] at hl
      obtain ⟨h1, h2⟩ := ih _ hl.2
      exact ⟨by rw [Spec.legal, hl.1, h1]; rfl, h2⟩
  obtain ⟨h1, h2⟩ := split os _ h
  have hr := (run_rel (rel_opened db) os h1).1
  generalize (run (opened db) os).2 = s at hr ⊢
  generalize (Spec.run (Spec.opened db) os).2 = a at hr h2
  have hs : a.staged = [] := by simpa [Spec.allowed] using h2
  have hc := commit_rel hr io hs
  cases hres : (commit s io).1 with
  | error e =>
    refine Or.inr ⟨⟨e, rfl⟩, ?_⟩
    unfold commit at hres ⊢
    generalize collectDirty s = l at hres ⊢
    cases l with
    | nil => rfl
    | cons p ps =>
      dsimp only at hres ⊢
      cases hw : writeAll s.db (p :: ps) with
      | error x => rfl
      | ok db' =>
        rw [hw] at hres
        dsimp only at hres ⊢
        by_cases hio : io = true
        · rw [if_pos hio] at hres; cases hres
        · rw [if_neg hio]
  | ok u =>
    left
    have hdone : (Spec.step a (.commit io)).1 = .done := by rw [← hc.2, hres]; rfl
    have hab : ((Spec.step a (.commit io)).2.committed = Spec.visible a) ∧
        (Spec.visible (Spec.step a (.commit io)).2 = Spec.visible a) ∧
        (Spec.step a (.commit io)).2.touched = false := by
      simp only [Spec.step] at hdone ⊢
      by_cases ht : a.touched = false
      · rw [if_pos ht]
        refine ⟨?_, rfl, ht⟩
        have hd : s.dirty = [] := by
          have := hr.touched
          rw [ht] at this
          simpa using this.symm
        funext k
        unfold Spec.visible
        cases hp : a.pend k with
        | none => rfl
        | some p =>
          have := (hr.dirty k).2 (by rw [hp]; rfl)
          rw [hd] at this; cases this
      · rw [if_neg ht] at hdone ⊢
        by_cases hcl : a.clash = true
        · rw [if_pos hcl] at hdone; cases hdone
        · rw [if_neg hcl] at hdone ⊢
          by_cases hio : io = true
          · rw [if_pos hio]; exact ⟨rfl, rfl, rfl⟩
          · rw [if_neg hio] at hdone; cases hdone
    refine ⟨rfl, fun k => ?_, fun k => ?_, ?_⟩
    · rw [hc.1.db, hab.1, (get_rel hr k).2.1]
    · rw [(get_rel hc.1 k).2.1, hab.2.1, (get_rel hr k).2.1]
    · have := hc.1.touched
      rw [hab.2.2] at this
      simpa using this.symm

example : Spec.legal (Spec.opened exDb) ([.add 3 30, .remove 1, .update 2 (fun v => some (v + 2))] ++ [.commit true]) = true ∧
    (commit (run (opened exDb) [.add 3 30, .remove 1, .update 2 (fun v => some (v + 2))]).2 true).2.db 2 = some 22 ∧
    (commit (run (opened exDb) [.add 3 30, .remove 1, .update 2 (fun v => some (v + 2))]).2 true).2.db 1 = none := by
  decide +kernel

/-- **C30** (violated) A pre-state read of a key added since the last commit returns the
uncommitted value: `clean_snapshot` of an added entry is the new value
(state/src/manager.rs 1008-1015). -/
theorem C30_clean_read_sees_uncommitted :
    (opened exDb).db 3 = none ∧
    (getClean (run (opened exDb) [.add 3 30]).2 3).2 = some 30 ∧
    (run (opened exDb) [.add 3 30]).2.db 3 = none := by
  decide +kernel

/-- **C30** (violated) Adding a key, removing it and rolling back leaves a clean cache entry for a
key that was never stored: reads return the phantom value although nothing is pending. -/
theorem C30_rollback_leaves_phantom :
    (run (opened exDb) [.add 3 30, .remove 3, .rollback]).2.db 3 = none ∧
    (run (opened exDb) [.add 3 30, .remove 3, .rollback]).2.dirty = [] ∧
    (get (run (opened exDb) [.add 3 30, .remove 3, .rollback]).2 3).2 = some 30 ∧
    (run (opened exDb) [.add 3 30, .remove 3, .commit true]).1 = [.done, .done, .err .commit] := by
  decide +kernel

/-- **C30** (violated) Removing a stored key and adding it again in the same block makes the commit
panic: the trie is asked to add a key it has. -/
theorem C30_readded_key_panics (v w : V) (db : K → Option V) (k : K) (h : db k = some v) :
    (run (opened db) [.remove k, .add k w, .commit true]).1 = [.done, .done, .err .panic] := by
  have hl : Spec.legal (Spec.opened db) [.remove k, .add k w, .commit true] = true := by
    simp [Spec.legal, Spec.allowed, Spec.isAdded, Spec.opened, Spec.step, Spec.visible, h, Spec.Pend.see]
  rw [C30_answers_partial db _ hl]
  simp [Spec.run, Spec.opened, Spec.step, Spec.visible, h, Spec.Pend.see]

example : (run (opened exDb) [.remove 1, .add 1 5, .commit true]).1 = [.done, .done, .err .panic] :=
  C30_readded_key_panics 10 5 exDb 1 rfl

/-- **C30** The weigher matters: were a dirty entry evicted, the write would be lost without an
error, since `collect_dirty` skips dirty keys that have no entry. -/
theorem C30_evicted_write_is_lost :
    let s := evictDirty (run (opened exDb) [.update 1 (fun v => some (v + 1))]).2 1
    (commit s true).1 = .ok () ∧ (commit s true).2.db 1 = some 10 := by
  exact ⟨rfl, rfl⟩

end Fastroll.StateCache
