import Verif.Acc.Lemmas5
/-!
# C15, C16, C43: accumulation gas, order of accumulation, the waiting queue
-/
namespace Fastroll.Acc

/-! ## C15 -/

/-- **Admission.** The number of reports admitted is the length of the longest prefix whose total gas
fits the budget, whatever the reports, including gas sums beyond 64 bits. -/
theorem C15_max_prefix (rs : List Report) (budget : Nat) (h : budget < 2 ^ 64) :
    IsMaxPrefix rs budget (maxProcessable rs budget) := maxProcessable_spec rs budget h

/-- A report with digests of the given gas for service 1. -/
def rep (pkg : Nat) (deps : List Nat) (gas : List Nat) : Report := ⟨pkg, deps, [], gas.map fun g => ⟨1, g⟩⟩

example : maxProcessable [rep 1 [] [3, 2], rep 2 [] [5], rep 3 [] [1]] 10 = 2 ∧
    maxProcessable [rep 1 [] [3, 2], rep 2 [] [2 ^ 64 - 1], rep 3 [] [1]] 10 = 1 := by decide

/-- **Termination.** For every behaviour of the services that stays within the given limits and pays for
its transfers, accumulation ends within `2 + reports + limit / 10` rounds: transfers cannot bounce
between services forever. -/
theorem C15_rounds_end {σ : Type} (exec : Exec σ) (hex : ExecOk exec) (next : σ → List Transfer → List Report → σ)
    (priv : σ → List Nat) (reports : List Report) (s : σ) (limit : Nat) (always : List (Nat × Nat)) (h : limit < 2 ^ 64) :
    ∃ r, (∀ o, r ≠ Step.continue o) ∧
      ∀ k, outerLoop exec next priv reports (2 + reports.length + limit / 10 + k) (outerInit s limit always) = r := by
  refine outerLoop_stops hex next priv reports limit _ _ (sane_init reports s limit always h) ?_
  simp only [Outer.measure, outerInit, Outer.budget, tgas, List.map_nil, List.sum_nil, Option.isSome_some, if_true]
  omega

/-- Service 1 sends service 2 a transfer, service 2 bounces it with less gas. -/
def bounce : Exec Unit := fun _ svc gas _ _ =>
  if 15 ≤ gas then some ⟨gas, [⟨svc, 3 - svc, 1, gas - 10⟩]⟩ else some ⟨gas, []⟩

example : ExecOk bounce := by
  intro s svc g ts rs r h
  unfold bounce at h
  split at h <;> cases h <;> simp; omega

example : (match outerLoop bounce (fun s _ _ => s) (fun _ => []) [rep 1 [] [100]] 22 (outerInit () 100 []) with
    | .done o => some (o.idx, o.remaining, o.gasPairs.length)
    | _ => none) = some (1, 0, 10) := by decide

/-- **Stops only when nothing fits.** When accumulation ends, no transfer is pending, the gas left does
not exceed the limit, and the next report, if any, needs more gas than is left. -/
theorem C15_maximal {σ : Type} (exec : Exec σ) (hex : ExecOk exec) (next : σ → List Transfer → List Report → σ)
    (priv : σ → List Nat) (reports : List Report) (s : σ) (limit : Nat) (always : List (Nat × Nat)) (h : limit < 2 ^ 64)
    (fuel : Nat) (o : Outer σ) (hrun : outerLoop exec next priv reports fuel (outerInit s limit always) = .done o) :
    o.idx ≤ reports.length ∧ o.remaining ≤ limit ∧ o.transfers = [] ∧
      ∀ r, reports[o.idx]? = some r → o.remaining < (r.digests.map (·.gas)).sum := by
  obtain ⟨h1, _, h3, h4⟩ := outerLoop_done hex _ _ _ (sane_init reports s limit always h) hrun
  refine ⟨h1.idx, ?_, h3, ?_⟩
  · have := h1.budget; unfold Outer.budget at this; omega
  · intro r hr
    obtain ⟨hlt, hget⟩ := List.getElem?_eq_some_iff.1 hr
    have := h4 hlt
    rw [List.drop_eq_getElem_cons hlt, List.headD_cons, hget] at this
    exact this

/-- **Each round** admits reports within the gas left and accounts for gas exactly: what is left and
what was used add up to what was left before plus what the pending transfers carried. -/
theorem C15_round {σ : Type} (exec : Exec σ) (hex : ExecOk exec) (next : σ → List Transfer → List Report → σ)
    (priv : σ → List Nat) (reports : List Report) (o o' : Outer σ)
    (hidx : o.idx ≤ reports.length) (hb : o.remaining + (o.transfers.map (·.gas)).sum < 2 ^ 64)
    (hrun : outerIter exec next priv reports o = .continue o') :
    totalGas ((reports.drop o.idx).take (o'.idx - o.idx)) ≤ o.remaining ∧ o.idx ≤ o'.idx ∧ o'.idx ≤ reports.length ∧
    o'.remaining + (o'.gasPairs.map (·.2)).sum =
      o.remaining + (o.gasPairs.map (·.2)).sum + (o.transfers.map (·.gas)).sum ∧
    o'.remaining + (o'.transfers.map (·.gas)).sum ≤ o.remaining + (o.transfers.map (·.gas)).sum := by
  have hs : Sane reports (o.remaining + (o.transfers.map (·.gas)).sum) o := ⟨hb, hidx, Nat.le_refl _⟩
  obtain ⟨h1, _, _, h4, h5, h6, h7⟩ := outerIter_continue hex hs hrun
  refine ⟨h5, h4, h1.idx, h6, ?_⟩
  unfold Outer.budget tgas at h7
  omega

example : ∃ o', outerIter bounce (fun s _ _ => s) (fun _ => []) [rep 1 [] [100]] (outerInit () 100 []) = .continue o' ∧
    o'.transfers = [⟨1, 2, 1, 90⟩] := ⟨_, rfl, rfl⟩

/-- **Overflow never happens without always-accumulate services.** -/
theorem C15_no_overflow {σ : Type} (exec : Exec σ) (hex : ExecOk exec) (next : σ → List Transfer → List Report → σ)
    (priv : σ → List Nat) (reports : List Report) (s : σ) (limit : Nat) (h : limit < 2 ^ 64) (fuel : Nat) :
    outerLoop exec next priv reports fuel (outerInit s limit []) ≠ .overflow :=
  outerLoop_no_overflow hex _ _ (sane_init reports s limit [] h) rfl

example : maxProcessable [rep 1 [] [100]] 100 = 1 := by decide

/-- A service that uses all its gas. -/
def greedy : Exec Unit := fun _ _ gas _ _ => some ⟨gas, []⟩

/-- **With always-accumulate services the block can fail.** The gas limit of the block covers them, but
reports are admitted against the whole limit: here four reports that fill the block and one
always-accumulate service, all within their own limits, make accumulation return `GasOverflow`. -/
theorem C15_always_overflow : ExecOk greedy ∧
    outerLoop greedy (fun s _ _ => s) (fun _ => []) [rep 1 [] [5], rep 2 [] [5], rep 3 [] [5], rep 4 [] [5]] 9
      (outerInit () (blockGas 20 5 2 [(7, 3)]) [(7, 3)]) = .overflow := by
  refine ⟨?_, by decide⟩
  intro s svc g ts rs r h
  cases h
  simp

example : blockGas 20 5 2 [(7, 3)] = 20 := by decide

/-! ## C16 -/

/-- **Dependencies first.** Over any chain of blocks from genesis, whatever becomes available and however
many reports fit into each block, every accumulated report comes after all packages it depends on. -/
theorem C16_chain_ordered (E : Nat) (hE : 0 < E) (bs : List Block) (s : St) (done : List Report)
    (hinc : Increasing 0 bs) (h : runBlocks (genesis E) bs = some (s, done)) : Ordered [] done := by
  have := good_run hE bs (genesis E) s [] [] done (good_genesis E) hinc h
  simpa using this.ordered

/-- Package 2 needs 1, package 3 needs 2 and arrives first; 4 and 5 need each other. -/
def demoBlocks : List Block :=
  [⟨[rep 3 [2] [1], rep 4 [5] [1], rep 5 [4] [1]], 1, 0⟩, ⟨[rep 2 [1] [1]], 3, 0⟩, ⟨[rep 1 [] [1]], 4, 3⟩]

example : Increasing 0 demoBlocks ∧ (runBlocks (genesis 12) demoBlocks).map (fun x => x.2.map (·.pkg)) = some [1, 2, 3] ∧
    (runBlocks (genesis 12) demoBlocks).map (fun x => x.1.queue.flatten.map (·.1.pkg)) = some [4, 5] := by
  refine ⟨⟨by decide, by decide, by decide, trivial⟩, by decide, by decide⟩

/-- **No repetition.** A report is accumulated at most as often as it was made available; if all
available reports are for different packages, no package is accumulated twice. -/
theorem C16_chain_no_repeat (E : Nat) (hE : 0 < E) (bs : List Block) (s : St) (done : List Report)
    (hinc : Increasing 0 bs) (h : runBlocks (genesis E) bs = some (s, done)) :
    (∀ r, done.count r ≤ (bs.flatMap (·.available)).count r) ∧
    (((bs.flatMap (·.available)).map (·.pkg)).Nodup → (done.map (·.pkg)).Nodup) := by
  have hg := good_run hE bs (genesis E) s [] [] done (good_genesis E) hinc h
  simp only [List.nil_append] at hg
  have hc : ∀ r, done.count r ≤ (bs.flatMap (·.available)).count r := by
    intro r
    have := hg.count r
    unfold cnt at this
    omega
  refine ⟨hc, fun hn => ?_⟩
  have hno : (bs.flatMap (·.available)).Nodup := (List.pairwise_map.1 hn).imp (fun hne he => hne (by rw [he]))
  have hnd : done.Nodup := by
    rw [List.nodup_iff_count]
    intro r
    exact Nat.le_trans (hc r) (List.nodup_iff_count.1 hno r)
  refine List.pairwise_map.2 (List.Pairwise.imp_of_mem ?_ hnd)
  intro a b ha hb hab hpk
  have ha' := hg.present a ha
  have hb' := hg.present b hb
  have hinj : ∀ (l : List Report), (l.map (·.pkg)).Nodup → a ∈ l → b ∈ l → a = b := by
    intro l
    induction l with
    | nil => intro _ h; cases h
    | cons x l ih =>
      intro hl h1 h2
      rw [List.map_cons] at hl
      obtain ⟨hx, hl'⟩ := List.nodup_cons.1 hl
      rcases List.mem_cons.1 h1 with e1 | h1'
      · rcases List.mem_cons.1 h2 with e2 | h2'
        · rw [e1, e2]
        · exact absurd (List.mem_map.2 ⟨b, h2', by rw [← e1]; exact hpk.symm⟩) hx
      · rcases List.mem_cons.1 h2 with e2 | h2'
        · exact absurd (List.mem_map.2 ⟨a, h1', by rw [← e2]; exact hpk⟩) hx
        · exact ih hl' h1' h2'
  exact hab (hinj _ hn ha' hb')

example : ((demoBlocks.flatMap (·.available)).map (·.pkg)).Nodup := by decide

/-- **Only what was available** is ever accumulated. -/
theorem C16_chain_only_offered (E : Nat) (hE : 0 < E) (bs : List Block) (s : St) (done : List Report)
    (hinc : Increasing 0 bs) (h : runBlocks (genesis E) bs = some (s, done)) :
    ∀ r ∈ done, ∃ b ∈ bs, r ∈ b.available := by
  have hg := good_run hE bs (genesis E) s [] [] done (good_genesis E) hinc h
  simp only [List.nil_append] at hg
  intro r hr
  exact List.mem_flatMap.1 (hg.present r hr)

example : ∃ b ∈ demoBlocks, rep 2 [1] [1] ∈ b.available := 
  ⟨⟨[rep 2 [1] [1]], 3, 0⟩, by simp [demoBlocks], by decide⟩

/-- **Everything possible is scheduled.** The packages scheduled in a block are exactly those that can
be scheduled: the least set containing every available report without dependencies, and every
waiting or new report all of whose recorded dependencies are in it. -/
theorem C16_least (available : List Report) (queue : List (List Entry)) (history : List (List Nat)) (slot p : Nat) :
    p ∈ (collect available queue history slot).1.map (·.pkg) ↔
      Schedulable ((available.filter fun r => r.deps.isEmpty).map (fun r => (r, [])) ++ flattenQueue queue slot ++
        (collect available queue history slot).2) p := by
  have hA : (available.filter fun r => r.deps.isEmpty) = (partitionByDeps available).1 := by
    unfold partitionByDeps Report.deps
    simp only []
    congr 1
    funext r
    cases r.prereqs <;> simp
  rw [hA]
  unfold collect
  simp only []
  generalize (partitionByDeps available).1 = A
  generalize extractQueued (partitionByDeps available).2 (historyUnion history) = N
  generalize flattenQueue queue slot = Q
  constructor
  · intro hp S hS
    have hSA : ∀ r ∈ A, S r.pkg := fun r hr =>
      hS (r, []) (List.mem_append_left _ (List.mem_append_left _ (List.mem_map.2 ⟨r, hr, rfl⟩))) (fun d hd => by cases hd)
    obtain ⟨r, hr, rfl⟩ := List.mem_map.1 hp
    rcases List.mem_append.1 hr with hr | hr
    · exact hSA r hr
    · refine extract_least _ S ?_ r hr
      intro e he hd
      obtain ⟨e0, h0, _, rfl⟩ := mem_editQueue.1 he
      refine hS e0 ?_ ?_
      · rcases List.mem_append.1 h0 with h0 | h0
        · exact List.mem_append_left _ (List.mem_append_right _ h0)
        · exact List.mem_append_right _ h0
      · intro d hdd
        by_cases hdA : d ∈ packageHashes A
        · obtain ⟨r', hr', rfl⟩ := List.mem_map.1 hdA
          exact hSA r' hr'
        · exact hd d (List.mem_filter.2 ⟨hdd, by simp [hdA]⟩)
  · intro hp
    refine hp (fun p => p ∈ (A ++ extractAccumulatables (editQueue (Q ++ N) (packageHashes A))).map (·.pkg)) ?_
    intro e he hd
    rw [List.map_append]
    simp only [List.map_append, List.mem_append] at hd
    rcases List.mem_append.1 he with he | he
    · rcases List.mem_append.1 he with he | he
      · obtain ⟨r, hr, rfl⟩ := List.mem_map.1 he
        exact List.mem_append_left _ (List.mem_map.2 ⟨r, hr, rfl⟩)
      all_goals
        by_cases hpA : e.1.pkg ∈ packageHashes A
        · exact List.mem_append_left _ hpA
        · refine List.mem_append_right _ ?_
          refine extract_closed _ (e.1, e.2.filter fun h => !(packageHashes A).contains h) (mem_editQueue.2 ⟨e, List.mem_append_left _ he, hpA, rfl⟩) ?_
          intro d hdd
          obtain ⟨hd1, hd2⟩ := List.mem_filter.1 hdd
          rcases hd d hd1 with h | h
          · exfalso
            simp only [List.contains_eq_mem, Bool.not_eq_true', decide_eq_false_iff_not] at hd2
            exact hd2 h
          · exact h
    · by_cases hpA : e.1.pkg ∈ packageHashes A
      · exact List.mem_append_left _ hpA
      · refine List.mem_append_right _ ?_
        refine extract_closed _ (e.1, e.2.filter fun h => !(packageHashes A).contains h) (mem_editQueue.2 ⟨e, List.mem_append_right _ he, hpA, rfl⟩) ?_
        intro d hdd
        obtain ⟨hd1, hd2⟩ := List.mem_filter.1 hdd
        rcases hd d hd1 with h | h
        · exfalso
          simp only [List.contains_eq_mem, Bool.not_eq_true', decide_eq_false_iff_not] at hd2
          exact hd2 h
        · exact h

/-- Two packages waiting for each other are not schedulable, a chain is. -/
example : (collect [rep 1 [] [], rep 3 [2] [], rep 2 [1] [], rep 4 [5] [], rep 5 [4] []] [[]] [[]] 0).1.map (·.pkg) = [1, 2, 3] := by
  decide

/-! ## C43 -/

/-- **The queue is a sliding window.** If the ring buffer holds the entries waiting since each of the
last `E` slots, then after a block in a later slot it does so again: the new entries belong to the
block's slot, skipped slots are empty, older slots keep their entries without the packages just
accumulated, and slots that fall out of the window are gone. -/
theorem C43_queue_window (q : List (List Entry)) (W : Int → List Entry) (queued : List Entry) (last : List Nat) (prior curr : Nat)
    (hE : 0 < q.length) (hlt : prior < curr) (hw : Window q W prior) :
    ∃ W', Window (queueTransition q queued last prior curr) W' curr ∧
      (queueTransition q queued last prior curr).length = q.length ∧ Remaining last queued (W' curr) ∧
      (∀ s : Int, prior < s → s < curr → W' s = []) ∧
      (∀ s : Int, (curr : Int) - q.length < s → s ≤ prior → Remaining last (W s) (W' s)) := by
  refine ⟨fun s => if s = curr then editQueue queued last else if (prior : Int) < s then [] else editQueue (W s) last, ?_,
    queueTransition_length _ _ _ _ _, ?_, ?_, ?_⟩
  · intro s h1 h2
    rw [queueTransition_length] at h1 ⊢
    have hj := queueTransition_get q queued last prior curr hE hlt ((curr : Int) - s).toNat (by omega)
    rw [show ((curr : Int) - ((((curr : Int) - s).toNat : Nat) : Int)) = s by omega] at hj
    unfold circ at hj
    rw [hj]
    show _ = some (if s = curr then editQueue queued last else if (prior : Int) < s then [] else editQueue (W s) last)
    by_cases hc : s = curr
    · rw [if_pos (by omega), if_pos hc]
    · rw [if_neg (by omega), if_neg hc]
      by_cases hp : (prior : Int) < s
      · rw [if_pos (by omega), if_pos hp]
      · rw [if_neg (by omega), if_neg hp]
        have := hw s (by omega) (by omega)
        rw [List.getD_eq_getElem?_getD, this]
        rfl
  · show Remaining last queued (if (curr : Int) = curr then editQueue queued last else _)
    rw [if_pos rfl]; exact remaining_edit _ _
  · intro s h1 h2
    simp only []
    rw [if_neg (by omega), if_pos h1]
  · intro s h1 h2
    simp only []
    rw [if_neg (by omega), if_neg (by omega)]
    exact remaining_edit _ _

example : queueTransition [[], [(rep 1 [9] [], [9])], [(rep 2 [8] [], [8])]] [(rep 3 [7] [], [7])] [8] 2 4 =
    [[], [(rep 3 [7] [], [7])], [(rep 2 [8] [], [])]] := by decide

/-- **Oldest first.** A block one slot after its parent considers the waiting entries in the order of the
slots they were queued in. -/
theorem C43_oldest_first (q : List (List Entry)) (W : Int → List Entry) (prior : Nat)
    (hE : 0 < q.length) (hw : Window q W prior) :
    flattenQueue q (prior + 1) =
      (List.range q.length).flatMap fun i : Nat => W ((prior : Int) + 1 - q.length + i) := by
  have hm : (prior + 1) % q.length < q.length := Nat.mod_lt _ hE
  unfold flattenQueue
  rw [List.flatMap_def]
  congr 1
  refine List.ext_getElem? fun i => ?_
  unfold rotl
  rw [List.getElem?_map]
  by_cases hi : i < q.length
  · rw [List.getElem?_range hi]
    have hs := hw ((prior : Int) + 1 - q.length + i) (by omega) (by omega)
    show _ = some (W ((prior : Int) + 1 - q.length + i))
    rw [← hs]
    have hidx : (((prior : Int) + 1 - q.length + i) % (q.length : Int)).toNat = ((prior + 1) % q.length + i) % q.length := by
      have h1 : ((prior : Int) + 1 - q.length + i) % (q.length : Int) = (((prior + 1 + i : Nat) : Int)) % (q.length : Int) := by
        rw [show (prior : Int) + 1 - q.length + i = ((prior + 1 + i : Nat) : Int) - q.length by omega, Int.sub_emod_right]
      rw [h1, ← Int.natCast_emod, Int.toNat_natCast, Nat.mod_add_mod]
    rw [hidx]
    generalize hmv : (prior + 1) % q.length = m at hm
    by_cases hlt : m + i < q.length
    · rw [List.getElem?_append_left (by rw [List.length_drop]; omega), List.getElem?_drop, Nat.mod_eq_of_lt hlt]
    · rw [List.getElem?_append_right (by rw [List.length_drop]; omega), List.length_drop, List.getElem?_take,
        if_pos (by omega)]
      have : (m + i) % q.length = i - (q.length - m) := by
        rw [Nat.mod_eq_sub_mod (by omega), Nat.mod_eq_of_lt (by omega)]; omega
      rw [this]
  · rw [List.getElem?_eq_none (by rw [List.length_append, List.length_drop, List.length_take]; omega),
      List.getElem?_eq_none (by rw [List.length_range]; omega)]
    rfl

example : (flattenQueue [[(rep 3 [7] [], [7])], [(rep 1 [9] [], [9])], [(rep 2 [8] [], [8])]] 4).map (·.1.pkg) = [1, 2, 3] := by
  decide

/-- **Accumulation history** keeps the newest `E` sets: the oldest is dropped and the new one appended, so
a package is remembered for exactly the `E` blocks after its accumulation. -/
theorem C43_history_window (bs : List (List Nat)) (h : List (List Nat)) (hE : 0 < h.length) :
    bs.foldl historyAdd h = (h ++ bs).drop bs.length ∧
      (bs.foldl historyAdd h).length = h.length := by
  induction bs generalizing h with
  | nil => simp
  | cons b bs ih =>
    have hl := historyAdd_length h b
    obtain ⟨h1, h2⟩ := ih (historyAdd h b) (by omega)
    rw [List.foldl_cons]
    refine ⟨?_, by rw [h2, hl]⟩
    rw [h1, historyAdd_eq h b hE]
    cases h with
    | nil => simp at hE
    | cons x h => simp

example : [[1], [2], [3]].foldl historyAdd [[], [9]] = [[2], [3]] := by decide

end Fastroll.Acc
