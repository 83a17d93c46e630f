import Verif.Readers.Lemmas2
/-
C77: reads that run at the same time as a commit never fail and never see a half-committed state; reads
during the finalization of a staged block may.
-/
namespace Fastroll.Readers
open Fastroll StateCache

/-! A small state: values up to 9 are embedded, others go by hash. -/

def exLeaf (v : Nat) : Leaf Nat := if v < 10 then .embedded v else .hashed (v * 7)

/-- 1 and 2 are stored, by hash and embedded; 1 is being changed, 3 added, 2 removed, 4 is stored and not cached. -/
def exSys : Sys Nat Nat where
  trie k := if k = 1 then some (.hashed 70) else if k = 2 then some (.embedded 5) else if k = 4 then some (.hashed 84) else none
  sdb h := if h = 70 then some 10 else if h = 84 then some 12 else none
  cache k := if k = 1 then some ⟨10, 20, .dirty .update⟩ else if k = 2 then some ⟨5, 5, .dirty .remove⟩
    else if k = 3 then some ⟨30, 30, .dirty .add⟩ else none
  dirty := [1, 2, 3]

/-- A state with nothing dirty: 1 and 4 are stored by hash, only 4 is cached. -/
def exIdle : Sys Nat Nat where
  trie k := if k = 1 then some (.hashed 70) else if k = 4 then some (.hashed 84) else none
  sdb h := if h = 70 then some 10 else if h = 84 then some 12 else none
  cache k := if k = 4 then some ⟨12, 12, .clean⟩ else none
  dirty := []

/-- A staged block that changes 1. -/
def exBlock : List (Nat × Entry Nat) := [(1, ⟨10, 20, .dirty .update⟩)]

theorem exLeaf_ok : LeafOk exLeaf := by
  intro v w h
  unfold exLeaf at h
  split at h
  · injection h with h
    exact h.symm
  · cases h

theorem exLeaf_inj {v w h : Nat} (h1 : exLeaf v = .hashed h) (h2 : exLeaf w = .hashed h) : w = v := by
  unfold exLeaf at h1 h2
  split at h1
  · cases h1
  · split at h2
    · cases h2
    · injection h1 with h1
      injection h2 with h2
      omega

theorem exSys_good : Good exSys := by
  refine ⟨fun k h hh => ?_, fun k e he hc => ?_, fun k => ⟨fun h => ?_, fun ⟨e, he, hc⟩ => ?_⟩, by decide⟩
  · simp only [exSys] at hh ⊢
    grind
  · simp only [exSys] at he
    grind
  · simp only [exSys, List.mem_cons, List.not_mem_nil, or_false] at h
    rcases h with rfl | rfl | rfl
    · exact ⟨_, rfl, by decide⟩
    · exact ⟨_, rfl, by decide⟩
    · exact ⟨_, rfl, by decide⟩
  · simp only [exSys] at he ⊢
    grind

theorem exIdle_good : Good exIdle := by
  refine ⟨fun k h hh => ?_, fun k e he hc => ?_, fun k => ⟨fun h => ?_, fun ⟨e, he, hc⟩ => ?_⟩, by decide⟩
  · simp only [exIdle] at hh ⊢
    grind
  · simp only [exIdle] at he
    simp only [stored, exIdle]
    grind
  · cases h
  · simp only [exIdle] at he
    grind

theorem exSys_apart : Apart exLeaf exSys (collect exSys) := by
  intro p hp h hh
  refine ⟨fun v hv => ?_, fun q hq hql => exLeaf_inj hh hql⟩
  have e : collect exSys = [(1, ⟨10, 20, .dirty .update⟩), (2, ⟨5, 5, .dirty .remove⟩), (3, ⟨30, 30, .dirty .add⟩)] := rfl
  rw [e] at hp
  simp only [exSys] at hv
  simp only [List.mem_cons, List.not_mem_nil, or_false] at hp
  rcases hp with rfl | rfl | rfl <;> simp [exLeaf] at hh <;> subst hh <;> simp at hv

theorem exIdle_apart : Apart exLeaf exIdle exBlock := by
  intro p hp h hh
  refine ⟨fun v hv => ?_, fun q hq hql => exLeaf_inj hh hql⟩
  simp only [exIdle] at hv
  simp only [exBlock, List.mem_cons, List.not_mem_nil, or_false] at hp
  subst hp
  simp [exLeaf] at hh
  subst hh
  simp at hv

variable {K V : Type} [DecidableEq K]

/-- C77 (commit_dirty_cache, state/src/manager.rs 841-869, against get_state_entry_internal, 917-953).  While
the dirty cache is committed any number of tasks may read any keys, at any pace, with clean entries dropped from
the cache at any moment: every read that ends gives the value that was visible when the commit began, and none
finds its value missing from the state database. -/
theorem C77_commit_reads (leaf : V → Leaf V) (hl : LeafOk leaf) (s : Sys K V) (hg : Good s) (ha : Apart leaf s (collect s))
    (ks : List K) (evs : List (Ev K)) :
    let c := run leaf true (collect s) (initial s ks) evs
    ∀ k a, .done k a ∈ c.readers → a = .value (visible s k) := by
  intro c k a h
  have hb := batch_collect hg
  exact (run_inv hg hl hb ha evs (initial_inv hg hb ks)).readers _ h

/-- Two readers overtake the writer in the middle of a commit: one of a key it changes, one of a key it does not. -/
example : (run exLeaf true (collect exSys) (initial exSys [1, 4, 2])
    [.reader 1, .writer, .reader 0, .reader 1, .reader 2, .writer, .reader 1, .evict 4, .writer, .reader 1, .writer]).readers =
    [.done 1 (.value (some 20)), .done 4 (.value (some 12)), .done 2 (.value none)] ∧
    ∀ evs k a, .done k a ∈ (run exLeaf true (collect exSys) (initial exSys [1, 4, 2]) evs).readers → a = .value (visible exSys k) :=
  ⟨by decide +kernel, fun evs => C77_commit_reads exLeaf exLeaf_ok exSys exSys_good exSys_apart [1, 4, 2] evs⟩

/-- C77.  When the commit is over, whatever was read meanwhile, the databases hold the values that were visible
when it began, the cache agrees with them, and nothing is dirty. -/
theorem C77_commit_end (leaf : V → Leaf V) (hl : LeafOk leaf) (s : Sys K V) (hg : Good s) (ha : Apart leaf s (collect s))
    (ks : List K) (evs : List (Ev K)) :
    let c := run leaf true (collect s) (initial s ks) evs
    c.writer = .finished → Good c.sys ∧ c.sys.dirty = [] ∧ (∀ k, stored c.sys k = visible s k) ∧
      ∀ k, visible c.sys k = visible s k := by
  intro c hw
  have hb := batch_collect hg
  have hi : Inv leaf s (collect s) c := run_inv hg hl hb ha evs (initial_inv hg hb ks)
  have hun : ∀ k, k ∉ unsynced (collect s) c.writer := fun k => by rw [hw]; exact List.not_mem_nil
  have hst : ∀ k, stored c.sys k = visible s k := fun k => by
    obtain ⟨h1, h2, h3⟩ := lookup_ok hg hl hb ha hi (hun k)
    unfold stored
    split
    · rename_i h
      exact (h1 h).symm
    · rename_i v h
      exact (h2 v h).symm
    · rename_i n h
      obtain ⟨v, h4, h5⟩ := h3 n h
      rw [h4, h5]
  have hcl : ∀ k e, c.sys.cache k = some e → e.status = .clean ∧ visible s k = some e.value := fun k e he => hi.settled k (hun k) e he
  refine ⟨⟨fun k n h => ?_, fun k e he _ => by rw [hst, (hcl k e he).2], fun k => ?_, ?_⟩, hi.dirty hw, hst, fun k => ?_⟩
  · obtain ⟨v, h4, _⟩ := (lookup_ok hg hl hb ha hi (hun k)).2.2 n h
    rw [h4]
    rfl
  · rw [hi.dirty hw]
    exact ⟨fun h => (by cases h), fun ⟨e, he, hc⟩ => absurd (hcl k e he).1 hc⟩
  · rw [hi.dirty hw]
    exact List.nodup_nil
  · show (match c.sys.cache k with | none => stored c.sys k | some e => _) = _
    cases hc : c.sys.cache k with
    | none => exact hst k
    | some e =>
      obtain ⟨h1, h2⟩ := hcl k e hc
      dsimp only
      rw [h1, if_neg (by decide), h2]

/-- The same commit run to its end, with a reader of 1 that begins before it and one of 4 that ends after it. -/
example : ∃ c, c = run exLeaf true (collect exSys) (initial exSys [1, 4])
    [.reader 1, .reader 1, .writer, .writer, .writer, .writer, .evict 1, .writer, .writer, .writer, .reader 1, .reader 1, .reader 0] ∧
    c.writer = .finished ∧ stored c.sys 1 = some 20 ∧ stored c.sys 2 = none ∧ stored c.sys 3 = some 30 ∧
    c.sys.cache 4 = some ⟨12, 12, .clean⟩ ∧ ∀ k, stored c.sys k = visible exSys k :=
  ⟨_, rfl, rfl, rfl, rfl, rfl, rfl, (C77_commit_end exLeaf exLeaf_ok exSys exSys_good exSys_apart [1, 4] _ rfl).2.2.1⟩

/-- C77 (apply_dirty_cache_commit, state/src/manager.rs 803-835).  While a staged block is finalized, a read of a key the
block does not touch gives the value it had, and a read of one it does touch gives the old value, the block's value, or
fails because the value is not yet in the state database.  Missing: that it never fails (`C77_finalize_missing`). -/
theorem C77_finalize_reads_partial (leaf : V → Leaf V) (hl : LeafOk leaf) (s : Sys K V) (hg : Good s) (hd : s.dirty = [])
    (es : List (K × Entry V)) (hn : (es.map Prod.fst).Nodup) (hc : ∀ p ∈ es, p.2.status ≠ .clean) (ha : Apart leaf s es)
    (ks : List K) (evs : List (Ev K)) :
    let c := run leaf false es (initial s ks) evs
    ∀ k a, .done k a ∈ c.readers →
      (k ∉ es.map Prod.fst → a = .value (visible s k)) ∧
      (∀ e, (k, e) ∈ es → a = .value (visible s k) ∨ a = .value (outcome e) ∨ a = .missing) := by
  intro c k a h
  have hi : FInv leaf s es c := run_finv hg hd hl hn hc ha evs (initial_finv hg hd ks)
  have uniq : ∀ {e e'}, (k, e) ∈ es → (k, e') ∈ es → e = e' := fun h1 h2 => key_unique hn h1 h2
  rcases hi.readers _ h with ⟨o, rfl, ho⟩ | ⟨hm, rfl⟩
  · refine ⟨fun hk => by rw [fine_other hk ho], fun e he => ?_⟩
    rcases ho with rfl | ⟨e', he', rfl⟩
    · exact .inl rfl
    · rw [uniq he he']
      exact .inr (.inl rfl)
  · exact ⟨fun hk => absurd hm hk, fun _ _ => .inr (.inr rfl)⟩

example : ∀ evs k a, .done k a ∈ (run exLeaf false exBlock (initial exIdle [1, 4]) evs).readers →
      (k ∉ exBlock.map Prod.fst → a = .value (visible exIdle k)) ∧
      (∀ e, (k, e) ∈ exBlock → a = .value (visible exIdle k) ∨ a = .value (outcome e) ∨ a = .missing) := fun evs =>
  C77_finalize_reads_partial exLeaf exLeaf_ok exIdle exIdle_good rfl exBlock (by decide) (by decide) exIdle_apart [1, 4] evs

/-- C77.  When the finalization is over the databases hold the block's values under its keys and the old ones elsewhere;
if no task read a key of the block meanwhile the cache agrees with them.  Missing: the cache when such a key was read
(`C77_finalize_stale`). -/
theorem C77_finalize_end_partial (leaf : V → Leaf V) (hl : LeafOk leaf) (s : Sys K V) (hg : Good s) (hd : s.dirty = [])
    (es : List (K × Entry V)) (hn : (es.map Prod.fst).Nodup) (hc : ∀ p ∈ es, p.2.status ≠ .clean) (ha : Apart leaf s es)
    (ks : List K) (evs : List (Ev K)) :
    let c := run leaf false es (initial s ks) evs
    c.writer = .finished →
      (∀ p ∈ es, stored c.sys p.1 = outcome p.2) ∧ (∀ k, k ∉ es.map Prod.fst → stored c.sys k = visible s k) ∧
      ((∀ k ∈ ks, k ∉ es.map Prod.fst) → Good c.sys ∧ ∀ k, visible c.sys k = stored c.sys k) := by
  intro c hw
  have hi : FInv leaf s es c := run_finv hg hd hl hn hc ha evs (initial_finv hg hd ks)
  have hph := hi.phase
  rw [hw] at hph
  obtain ⟨ht, hsd⟩ := hph
  have hnew : ∀ p ∈ es, stored c.sys p.1 = outcome p.2 := fun p hp => by
    obtain ⟨h1, h2, h3⟩ := stored_here hl hn ha p hp (hc p hp)
    unfold stored
    rw [ht, hsd]
    split
    · rename_i h
      exact (h3 h).symm
    · rename_i v h
      exact (h1 v h).symm
    · rename_i n h
      obtain ⟨v, h4, h5⟩ := h2 n h
      rw [h4, h5]
  have hold : ∀ k, k ∉ es.map Prod.fst → stored c.sys k = visible s k := fun k hk => by
    obtain ⟨h1, h2, h3⟩ := flookup hg hd hl hn hc ha hi k
    unfold stored
    split
    · rename_i h
      exact fine_other hk (h1 h)
    · rename_i v h
      exact fine_other hk (h2 v h)
    · rename_i n h
      obtain ⟨_, v, h4, h5⟩ := h3 n h
      rw [hsd, h4]
      exact fine_other hk h5
  refine ⟨hnew, hold, fun hks => ?_⟩
  have hq : Quiet es c := quiet_run hc evs ⟨fun pc hpc => by
    obtain ⟨k, hk, rfl⟩ := List.mem_map.1 hpc
    exact hks k hk, fun _ h => (by cases h), fun k hk hun => absurd hk hun⟩
  have hdirty : c.sys.dirty = [] := (dirty_run evs (initial s ks) (fun h => by cases h)).trans hd
  have hcl : ∀ k e, c.sys.cache k = some e → e.status = .clean ∧ stored c.sys k = some e.value := fun k e he => by
    obtain ⟨h1, h2⟩ := hi.cache k e he
    refine ⟨h1, ?_⟩
    by_cases hm : k ∈ es.map Prod.fst
    · obtain ⟨e0, h3, h4⟩ := hq.new k hm (by rw [hw]; exact List.not_mem_nil) e he
      rw [hnew _ h3, h4]
    · rw [hold k hm, ← fine_other hm h2]
  refine ⟨⟨fun k n h => ?_, fun k e he _ => (hcl k e he).2, fun k => ?_, ?_⟩, fun k => ?_⟩
  · obtain ⟨_, v, h4, _⟩ := (flookup hg hd hl hn hc ha hi k).2.2 n h
    rw [hsd, h4]
    rfl
  · rw [hdirty]
    exact ⟨fun h => (by cases h), fun ⟨e, he, hcc⟩ => absurd (hcl k e he).1 hcc⟩
  · rw [hdirty]
    exact List.nodup_nil
  · show (match c.sys.cache k with | none => stored c.sys k | some e => _) = _
    cases hck : c.sys.cache k with
    | none => rfl
    | some e =>
      obtain ⟨h1, h2⟩ := hcl k e hck
      dsimp only
      rw [h1, if_neg (by decide), h2]

example : ∃ c, c = run exLeaf false exBlock (initial exIdle [4, 7])
    [.reader 0, .writer, .evict 4, .reader 1, .writer, .writer, .reader 1, .writer] ∧ c.writer = .finished ∧
    c.sys.cache 1 = some ⟨20, 20, .clean⟩ ∧ stored c.sys 1 = some 20 ∧ Good c.sys ∧ ∀ k, visible c.sys k = stored c.sys k :=
  ⟨_, rfl, rfl, rfl, rfl, (C77_finalize_end_partial exLeaf exLeaf_ok exIdle exIdle_good rfl exBlock (by decide) (by decide)
    exIdle_apart [4, 7] _ rfl).2.2 (by decide)⟩

/-- C77, a defect: between the Merkle actor's command and the write to the state database, a read of a key of the block
finds a hash in the trie and nothing under it, and fails (`StateDBMissingEntry`), though the key has a value before,
after and throughout. -/
theorem C77_finalize_missing : Good exIdle ∧ Apart exLeaf exIdle exBlock ∧
    visible exIdle 1 = some 10 ∧ outcome (exBlock.head (by decide)).2 = some 20 ∧
    (run exLeaf false exBlock (initial exIdle [1]) [.writer, .reader 0, .reader 0, .reader 0]).readers = [.done 1 .missing] :=
  ⟨exIdle_good, exIdle_apart, rfl, rfl, by decide +kernel⟩

/-- C77, a defect: a read that took the old value from the state database and is overtaken by the finalization puts it
back into the cache as clean.  The databases hold the new value, every later read gives the old one, and nothing is left to
correct it. -/
theorem C77_finalize_stale : ∃ c, c = run exLeaf false exBlock (initial exIdle [1, 1])
      [.reader 0, .reader 0, .reader 0, .writer, .writer, .writer, .writer, .reader 0, .reader 1] ∧
    c.writer = .finished ∧ stored c.sys 1 = some 20 ∧ visible c.sys 1 = some 10 ∧
    c.readers = [.done 1 (.value (some 10)), .done 1 (.value (some 10))] ∧ c.sys.dirty = [] ∧ ¬ Good c.sys :=
  ⟨_, rfl, rfl, rfl, rfl, by decide +kernel, rfl, fun h => by
    have := h.clean 1 _ rfl rfl
    revert this
    decide +kernel⟩

end Fastroll.Readers
