import Verif.Acc.Lemmas2
/-! Lemmas on a block and on chains of blocks. -/
namespace Fastroll.Acc

theorem Ordered.take {D : List Nat} {rs : List Report} (h : Ordered D rs) (n : Nat) : Ordered D (rs.take n) := by
  intro pre r post hs
  refine h pre r (post ++ rs.drop n) ?_
  conv => lhs; rw [← List.take_append_drop n rs, hs]
  simp

theorem Ordered.append {D : List Nat} {xs ys : List Report} (hx : Ordered D xs)
    (hy : Ordered (D ++ xs.map (·.pkg)) ys) : Ordered D (xs ++ ys) := by
  intro pre r post hs d hd
  rcases append_split hs with ⟨post', hp⟩ | ⟨pre', hp, hyy⟩
  · exact hx pre r post' hp d hd
  · rcases hy pre' r post hyy d hd with h | ⟨r', hr', h⟩
    · rcases List.mem_append.1 h with h | h
      · exact .inl h
      · obtain ⟨r', hr', rfl⟩ := List.mem_map.1 h
        exact .inr ⟨r', by rw [hp]; exact List.mem_append_left _ hr', rfl⟩
    · exact .inr ⟨r', by rw [hp]; exact List.mem_append_right _ hr', h⟩

/-- The entries know every dependency that is not accumulated yet. -/
def Knows (D : List Nat) (q : List Entry) : Prop := ∀ e ∈ q, ∀ d ∈ e.1.deps, d ∈ e.2 ∨ d ∈ D

theorem Knows.edit {D : List Nat} {q : List Entry} (h : Knows D q) (A : List Nat) : Knows (D ++ A) (editQueue q A) := by
  intro e he d hd
  obtain ⟨e0, h0, _, rfl⟩ := mem_editQueue.1 he
  rcases h e0 h0 d hd with h1 | h1
  · by_cases hA : d ∈ A
    · exact .inr (List.mem_append_right _ hA)
    · exact .inl (List.mem_filter.2 ⟨h1, by simp [hA]⟩)
  · exact .inr (List.mem_append_left _ h1)

theorem knows_workReportDeps (rs : List Report) : Knows [] (rs.map workReportDeps) := by
  intro e he d hd
  obtain ⟨r, _, rfl⟩ := List.mem_map.1 he
  exact .inl hd

theorem Knows.mono {D D' : List Nat} {q : List Entry} (h : Knows D q) (hD : ∀ d ∈ D, d ∈ D') : Knows D' q := by
  intro e he d hd
  rcases h e he d hd with h1 | h1
  · exact .inl h1
  · exact .inr (hD d h1)

theorem knows_extractQueued {D : List Nat} (rs : List Report) (hist : List Nat) (hh : ∀ p ∈ hist, p ∈ D) :
    Knows D (extractQueued rs hist) :=
  ((knows_workReportDeps rs).edit hist).mono (by simpa using hh)

theorem extract_ordered {D : List Nat} {q : List Entry} (h : Knows D q) : Ordered D (extractAccumulatables q) := by
  intro pre r post hs d hd
  obtain ⟨e, he, rfl, hpre⟩ := extract_order q pre r post hs
  rcases h e he d hd with h1 | h1
  · obtain ⟨r', hr', hp⟩ := List.mem_map.1 (hpre d h1)
    exact .inr ⟨r', hr', hp⟩
  · exact .inl h1

theorem collect_ordered {D : List Nat} {avail : List Report} {queue : List (List Entry)} {history : List (List Nat)} {slot : Nat}
    (hq : Knows D queue.flatten) (hh : ∀ p ∈ historyUnion history, p ∈ D) :
    Ordered D (collect avail queue history slot).1 := by
  unfold collect
  simp only []
  refine Ordered.append ?_ ?_
  · intro pre r post hs d hd
    have hr : r ∈ (partitionByDeps avail).1 := by rw [hs]; simp
    have := (List.mem_filter.1 hr).2
    simp only [Bool.and_eq_true, List.isEmpty_iff] at this
    unfold Report.deps at hd
    rw [this.1, this.2] at hd
    cases hd
  · refine extract_ordered (Knows.edit ?_ _)
    intro e he d hd
    rcases List.mem_append.1 he with he | he
    · exact hq e (mem_flattenQueue.1 he) d hd
    · exact knows_extractQueued _ _ hh e he d hd

theorem cnt_append (r : Report) (a b : List Report) : cnt r (a ++ b) = cnt r a + cnt r b := by
  unfold cnt; rw [List.count_append]

theorem cntE_workReportDeps (r : Report) (rs : List Report) : cntE r (rs.map workReportDeps) = cnt r rs := by
  unfold cntE cnt
  rw [List.map_map]
  congr 1
  conv => rhs; rw [← List.map_id rs]
  rfl

theorem cnt_partition (r : Report) (rs : List Report) :
    cnt r (partitionByDeps rs).1 + cnt r (partitionByDeps rs).2 = cnt r rs := by
  unfold partitionByDeps cnt
  simp only []
  induction rs with
  | nil => rfl
  | cons x rs ih =>
    simp only [List.filter_cons, List.count_cons]
    cases x.prereqs.isEmpty && x.lookup.isEmpty <;> simp only [Bool.not_true, Bool.not_false, Bool.false_eq_true,
      if_true, if_false, List.count_cons] <;> omega

theorem cnt_take (r : Report) (rs : List Report) (n : Nat) : cnt r (rs.take n) ≤ cnt r rs :=
  List.Sublist.count_le r (List.take_sublist n rs)

/-- A report is scheduled, plus newly queued, at most as often as it is offered or waiting. -/
theorem collect_cnt (r : Report) (avail : List Report) (queue : List (List Entry)) (history : List (List Nat)) (slot : Nat) :
    cnt r (collect avail queue history slot).1 ≤ cnt r avail + cntE r queue.flatten ∧
    cntE r (collect avail queue history slot).2 ≤ cnt r avail := by
  unfold collect
  simp only []
  have hp := cnt_partition r avail
  have h1 : cntE r (extractQueued (partitionByDeps avail).2 (historyUnion history)) ≤ cnt r (partitionByDeps avail).2 := by
    unfold extractQueued
    rw [cntE_editQueue, cntE_workReportDeps]
    split <;> omega
  have h2 := extract_count (editQueue (flattenQueue queue slot ++ extractQueued (partitionByDeps avail).2 (historyUnion history))
    (packageHashes (partitionByDeps avail).1)) r
  rw [cntE_editQueue, cntE_append, cntE_flattenQueue] at h2
  rw [cnt_append]
  refine ⟨?_, by omega⟩
  split at h2 <;> omega

/-- What holds of the chain state, given the accumulated reports `L` and the offered reports `O`. -/
structure Good (E : Nat) (s : St) (L O : List Report) : Prop where
  qlen : s.queue.length = E
  hlen : s.history.length = E
  knows : Knows (L.map (·.pkg)) s.queue.flatten
  hist : ∀ p ∈ historyUnion s.history, p ∈ L.map (·.pkg)
  ordered : Ordered [] L
  count : ∀ r, cnt r L + cntE r s.queue.flatten ≤ cnt r O
  present : ∀ r ∈ L, r ∈ O

theorem good_genesis (E : Nat) : Good E (genesis E) [] [] := by
  have hf : ∀ {α : Type} (n : Nat), (List.replicate n ([] : List α)).flatten = [] := by
    intro α n; induction n with
    | zero => rfl
    | succ n ih => rw [List.replicate_succ, List.flatten_cons, ih]; rfl
  refine ⟨by simp [genesis], by simp [genesis], ?_, ?_, ?_, ?_, ?_⟩
  · intro e he; simp only [genesis, hf] at he; cases he
  · intro p hp; simp only [genesis, historyUnion, hf] at hp; cases hp
  · intro pre r post h; simp at h
  · intro r; simp only [genesis, hf]; exact Nat.le_refl _
  · intro r hr; cases hr

theorem good_step {E : Nat} (hE : 0 < E) {s s' : St} {L O done : List Report} {avail : List Report} {slot n : Nat}
    (hg : Good E s L O) (hslot : s.slot < slot) (h : blockStep s avail slot n = some (s', done)) :
    Good E s' (L ++ done) (O ++ avail) ∧ s'.slot = slot := by
  unfold blockStep at h
  simp only [] at h
  split at h
  · cases h
  · cases h
    refine ⟨⟨?_, ?_, ?_, ?_, ?_, ?_, ?_⟩, rfl⟩
    · simp only []; rw [queueTransition_length]; exact hg.qlen
    · simp only []; rw [historyAdd_length]; exact hg.hlen
    · intro e he d hd
      rw [List.map_append]
      rcases queueTransition_mem (by rw [hg.qlen]; exact hE) hslot he with he | he
      · refine (Knows.edit (D := L.map (·.pkg)) ?_ _) e he d hd
        exact knows_extractQueued _ _ hg.hist
      · exact (hg.knows.edit _) e he d hd
    · intro p hp
      rw [List.map_append]
      rcases mem_historyAdd (by rw [hg.hlen]; exact hE) hp with hp | hp
      · exact List.mem_append_left _ (hg.hist p hp)
      · exact List.mem_append_right _ hp
    · refine hg.ordered.append ?_
      refine Ordered.take ?_ n
      exact collect_ordered hg.knows (fun p hp => by simpa using hg.hist p hp)
    · intro r
      have h1 := hg.count r
      obtain ⟨h2, h3⟩ := collect_cnt r avail s.queue s.history slot
      have h4 := cnt_take r (collect avail s.queue s.history slot).1 n
      have h5 := queueTransition_cnt r s.queue (collect avail s.queue s.history slot).2
        (packageHashes ((collect avail s.queue s.history slot).1.take n)) s.slot slot (by rw [hg.qlen]; exact hE)
      rw [cnt_append, cnt_append]
      simp only []
      by_cases hr : r.pkg ∈ packageHashes ((collect avail s.queue s.history slot).1.take n)
      · have h6 := queueTransition_cnt_done r s.queue (collect avail s.queue s.history slot).2 _ s.slot slot
          (by rw [hg.qlen]; exact hE) hslot hr
        omega
      · have h6 : cnt r ((collect avail s.queue s.history slot).1.take n) = 0 := by
          unfold cnt
          rw [List.count_eq_zero]
          intro hm
          exact hr (List.mem_map.2 ⟨r, hm, rfl⟩)
        omega
    · intro r hr
      rcases List.mem_append.1 hr with hr | hr
      · exact List.mem_append_left _ (hg.present r hr)
      · have h2 := (collect_cnt r avail s.queue s.history slot).1
        have h3 := hg.count r
        have h4 : 0 < cnt r (collect avail s.queue s.history slot).1 := by
          unfold cnt; rw [List.count_pos_iff]; exact List.mem_of_mem_take hr
        have h5 : 0 < cnt r (O ++ avail) := by rw [cnt_append]; omega
        unfold cnt at h5
        rwa [List.count_pos_iff] at h5

theorem good_run {E : Nat} (hE : 0 < E) : ∀ bs s s' L O done, Good E s L O → Increasing s.slot bs →
    runBlocks s bs = some (s', done) → Good E s' (L ++ done) (O ++ bs.flatMap (·.available)) := by
  intro bs
  induction bs with
  | nil => intro s s' L O done hg _ h; cases h; simpa using hg
  | cons b bs ih =>
    intro s s' L O done hg hinc h
    unfold runBlocks at h
    split at h
    · cases h
    · rename_i s1 d1 h1
      obtain ⟨hg1, hs1⟩ := good_step hE hg hinc.1 h1
      split at h
      · cases h
      · rename_i s2 d2 h2
        cases h
        have := ih s1 s' _ _ d2 hg1 (by rw [hs1]; exact hinc.2) h2
        simpa [List.append_assoc] using this

theorem remaining_edit (q : List Entry) (A : List Nat) : Remaining A q (editQueue q A) := by
  refine ⟨?_, ?_⟩
  · unfold editQueue
    rw [List.map_map, List.filter_map]
    have : (fun e : Entry => !A.contains e.1.pkg) = ((fun r : Report => decide (r.pkg ∉ A)) ∘ fun e : Entry => e.1) := by
      funext e
      simp [List.contains_eq_mem]
    rw [this]
    rfl
  · intro e he
    obtain ⟨e0, h0, _, rfl⟩ := mem_editQueue.1 he
    refine ⟨e0, h0, rfl, fun d => ?_⟩
    rw [List.mem_filter]
    simp

end Fastroll.Acc
