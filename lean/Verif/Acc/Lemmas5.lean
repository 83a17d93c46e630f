import Verif.Acc.Lemmas4
/-! Lemmas on the rounds of accumulation. -/
namespace Fastroll.Acc

variable {σ : Type}

def tgas (ts : List Transfer) : Nat := (ts.map (·.gas)).sum
def ugas (gs : List (Nat × Nat)) : Nat := (gs.map (·.2)).sum

/-- Budget still in the system: the counter and the gas carried by pending transfers. -/
def Outer.budget (o : Outer σ) : Nat := o.remaining + tgas o.transfers

/-- What bounds the number of rounds left. -/
def Outer.measure (reports : List Report) (o : Outer σ) : Nat :=
  (if o.always.isSome then 1 else 0) + (reports.length - o.idx) + (if o.transfers = [] then 0 else 1) + o.budget / 10

structure Sane (reports : List Report) (limit : Nat) (o : Outer σ) : Prop where
  lim : limit < U64
  idx : o.idx ≤ reports.length
  budget : o.budget ≤ limit

theorem outerIter_done {exec : Exec σ} {next : σ → List Transfer → List Report → σ} {priv : σ → List Nat}
    {reports : List Report} {o o' : Outer σ} (h : outerIter exec next priv reports o = .done o') :
    o' = { o with always := none } ∧ o.transfers = [] ∧ (o.idx < reports.length → maxProcessable (reports.drop o.idx) o.remaining = 0) := by
  unfold outerIter at h
  simp only [] at h
  by_cases c1 : (!decide (o.idx < reports.length) && !!o.transfers.isEmpty && o.always.isNone) = true
  · rw [if_pos c1] at h
    cases h
    simp only [Bool.and_eq_true, Bool.not_eq_true', decide_eq_false_iff_not, Bool.not_not, List.isEmpty_iff,
      Option.isNone_iff_eq_none] at c1
    refine ⟨?_, c1.1.2, fun hh => absurd hh c1.1.1⟩
    rw [← c1.2]
  · rw [if_neg c1] at h
    generalize hn : (if decide (o.idx < reports.length) = true then maxProcessable (reports.drop o.idx) o.remaining else 0) = n at h
    split at h
    · rename_i c2
      cases h
      simp only [Bool.and_eq_true, decide_eq_true_eq, Bool.not_not, List.isEmpty_iff] at c2
      refine ⟨rfl, c2.1.2, fun hh => ?_⟩
      rw [if_pos (by simpa using hh)] at hn
      rw [hn]; exact c2.1.1
    · split at h
      · cases h
      · split at h
        · split at h
          · cases h
          · split at h <;> cases h
        · cases h

theorem outerIter_continue {exec : Exec σ} (hex : ExecOk exec) {next : σ → List Transfer → List Report → σ} {priv : σ → List Nat}
    {reports : List Report} {limit : Nat} {o o' : Outer σ} (hs : Sane reports limit o)
    (h : outerIter exec next priv reports o = .continue o') :
    Sane reports limit o' ∧ o'.measure reports < o.measure reports ∧
      o'.always = none ∧ o.idx ≤ o'.idx ∧
      totalGas ((reports.drop o.idx).take (o'.idx - o.idx)) ≤ o.remaining ∧
      o'.remaining + ugas o'.gasPairs = o.remaining + ugas o.gasPairs + tgas o.transfers ∧
      o'.budget + 10 * o'.transfers.length ≤ o.budget := by
  unfold outerIter at h
  simp only [] at h
  split at h
  · cases h
  · rename_i c1
    generalize hn : (if decide (o.idx < reports.length) = true then maxProcessable (reports.drop o.idx) o.remaining else 0) = n at h
    have hrem : o.remaining < U64 := by have := hs.budget; have := hs.lim; unfold Outer.budget at *; omega
    have hmax : o.idx + n ≤ reports.length ∧ totalGas ((reports.drop o.idx).take n) ≤ o.remaining := by
      by_cases hlt : o.idx < reports.length
      · rw [if_pos (by simpa using hlt)] at hn
        obtain ⟨m1, m2, _⟩ := maxProcessable_spec (reports.drop o.idx) o.remaining hrem
        rw [hn] at m1 m2
        rw [List.length_drop] at m1
        exact ⟨by omega, m2⟩
      · rw [if_neg (by simpa using hlt)] at hn
        subst hn
        exact ⟨by have := hs.idx; omega, by simp [totalGas]⟩
    split at h
    · cases h
    · rename_i c2
      split at h
      · cases h
      · rename_i gas new hpar
        have hp := accumulateParallel_spec hex hpar
        split at h
        · rename_i used tg hu ht
          obtain ⟨hu1, _⟩ := checkedSum_some hu
          obtain ⟨ht1, _⟩ := checkedSum_some ht
          split at h
          · cases h
          · rename_i r hr
            obtain ⟨hr1, _⟩ := checkedAdd_some hr
            split at h
            · cases h
            · rename_i hle
              cases h
              have e1 : tgas o.transfers = tg := ht1.symm
              have e2 : ugas gas = used := hu1.symm
              have hb' : (r - used) + tgas new + 10 * new.length ≤ o.remaining + tgas o.transfers := by
                have : tgas new + 10 * new.length ≤ used := by rw [← e2]; exact hp.2
                omega
              have hbud := hs.budget
              unfold Outer.budget at hbud
              refine ⟨⟨hs.lim, hmax.1, ?_⟩, ?_, rfl, Nat.le_add_right _ _, ?_, ?_, ?_⟩
              · unfold Outer.budget; simp only []; omega
              · unfold Outer.measure Outer.budget
                simp only [Option.isSome_none, Bool.false_eq_true, if_false]
                have hgo : 0 < n ∨ o.transfers ≠ [] ∨ o.always.isSome = true := by
                  by_cases hn0 : n = 0
                  · right
                    by_cases ht0 : o.transfers = []
                    · right
                      cases ha : o.always with
                      | some a => rfl
                      | none =>
                        rw [ha, ht0] at c2
                        simp [hn0] at c2
                    · exact .inl ht0
                  · left; omega
                have hidx := hs.idx
                have hm1 := hmax.1
                by_cases hnew : new = []
                · subst hnew
                  have hb2 : (r - used) + tgas [] ≤ o.remaining + tgas o.transfers := by
                    simp only [List.length_nil] at hb'; omega
                  have hdiv : ((r - used) + tgas []) / 10 ≤ (o.remaining + tgas o.transfers) / 10 := Nat.div_le_div_right hb2
                  rw [if_pos rfl]
                  rcases hgo with hg | hg | hg
                  · split <;> split <;> omega
                  · rw [if_neg hg]; split <;> omega
                  · rw [if_pos hg]; split <;> omega
                · have hlen : 0 < new.length := List.length_pos_iff.2 hnew
                  have hdiv : ((r - used) + tgas new) / 10 + 1 ≤ (o.remaining + tgas o.transfers) / 10 := by
                    rw [← Nat.add_div_right _ (by omega : 0 < 10)]
                    exact Nat.div_le_div_right (by omega)
                  rw [if_neg hnew]
                  rcases hgo with hg | hg | hg
                  · split <;> split <;> omega
                  · rw [if_neg hg]; split <;> omega
                  · rw [if_pos hg]; split <;> omega
              · simp only []; rw [Nat.add_sub_cancel_left]; exact hmax.2
              · simp only []
                unfold ugas at *
                rw [List.map_append, List.sum_append]
                omega
              · unfold Outer.budget; simp only []; omega
        · cases h

theorem outerLoop_stops {exec : Exec σ} (hex : ExecOk exec) (next : σ → List Transfer → List Report → σ) (priv : σ → List Nat)
    (reports : List Report) (limit : Nat) : ∀ m o, Sane reports limit o → o.measure reports < m →
    ∃ r, (∀ o', r ≠ Step.continue o') ∧ ∀ k, outerLoop exec next priv reports (m + k) o = r := by
  intro m
  induction m with
  | zero => intro o _ h; omega
  | succ m ih =>
    intro o hs hm
    cases hit : outerIter exec next priv reports o with
    | «continue» o1 =>
      have hc := outerIter_continue hex hs hit
      obtain ⟨r, h1, h2⟩ := ih o1 hc.1 (by have := hc.2.1; omega)
      refine ⟨r, h1, fun k => ?_⟩
      rw [show m + 1 + k = (m + k) + 1 by omega]
      unfold outerLoop
      rw [hit]
      exact h2 k
    | done o1 =>
      refine ⟨.done o1, fun o' => (by simp), fun k => ?_⟩
      rw [show m + 1 + k = (m + k) + 1 by omega]
      unfold outerLoop
      rw [hit]
    | overflow =>
      refine ⟨.overflow, fun o' => (by simp), fun k => ?_⟩
      rw [show m + 1 + k = (m + k) + 1 by omega]
      unfold outerLoop
      rw [hit]

theorem outerLoop_done {exec : Exec σ} (hex : ExecOk exec) {next : σ → List Transfer → List Report → σ} {priv : σ → List Nat}
    {reports : List Report} {limit : Nat} : ∀ m o o', Sane reports limit o → outerLoop exec next priv reports m o = .done o' →
    Sane reports limit o' ∧ o.idx ≤ o'.idx ∧ o'.transfers = [] ∧
      (o'.idx < reports.length → o'.remaining < ((reports.drop o'.idx).headD ⟨0, [], [], []⟩ |>.digests.map (·.gas)).sum) := by
  intro m
  induction m with
  | zero => intro o o' _ h; cases h
  | succ m ih =>
    intro o o' hs h
    unfold outerLoop at h
    split at h
    · rename_i o1 hit
      have hc := outerIter_continue hex hs hit
      have := ih o1 o' hc.1 h
      exact ⟨this.1, Nat.le_trans hc.2.2.2.1 this.2.1, this.2.2⟩
    · rename_i hnc
      obtain ⟨he, ht, hmax⟩ := outerIter_done h
      subst he
      refine ⟨⟨hs.lim, hs.idx, hs.budget⟩, Nat.le_refl _, ht, fun hlt => ?_⟩
      simp only [] at hlt ⊢
      have h0 := hmax hlt
      have hrem : o.remaining < U64 := by have := hs.budget; have := hs.lim; unfold Outer.budget at *; omega
      have hm := (maxProcessable_spec (reports.drop o.idx) o.remaining hrem).2.2 1 (by rw [List.length_drop]; omega)
      rw [h0] at hm
      have hd : reports.drop o.idx = reports[o.idx] :: reports.drop (o.idx + 1) := List.drop_eq_getElem_cons hlt
      rw [hd] at hm ⊢
      rw [List.take_succ_cons, List.take_zero, totalGas_cons] at hm
      simp only [List.headD_cons]
      simp only [totalGas, List.map_nil, List.sum_nil] at hm
      omega

theorem outerIter_no_overflow {exec : Exec σ} (hex : ExecOk exec) {next : σ → List Transfer → List Report → σ} {priv : σ → List Nat}
    {reports : List Report} {limit : Nat} {o : Outer σ} (hs : Sane reports limit o) (ha : o.always.getD [] = []) :
    outerIter exec next priv reports o ≠ .overflow := by
  intro h
  unfold outerIter at h
  simp only [] at h
  rw [ha] at h
  have hbud := hs.budget
  have hlim := hs.lim
  unfold Outer.budget at hbud
  split at h
  · cases h
  · generalize hn : (if decide (o.idx < reports.length) = true then maxProcessable (reports.drop o.idx) o.remaining else 0) = n at h
    split at h
    · cases h
    · skip
      have hmax : totalGas ((reports.drop o.idx).take n) ≤ o.remaining := by
        by_cases hlt : o.idx < reports.length
        · rw [if_pos (by simpa using hlt)] at hn
          obtain ⟨m1, m2, _⟩ := maxProcessable_spec (reports.drop o.idx) o.remaining (by omega)
          rwa [hn] at m2
        · rw [if_neg (by simpa using hlt)] at hn
          subst hn
          simp [totalGas]
      have htodo : totalGas (if n > 0 then (reports.drop o.idx).take n else []) ≤ o.remaining := by
        split
        · exact hmax
        · simp [totalGas]
      generalize (if n > 0 then (reports.drop o.idx).take n else []) = todo at h htodo
      split at h
      · rename_i hpar
        unfold accumulateParallel at hpar
        obtain ⟨r, hr⟩ := parallelLoop_ok exec o.s o.transfers todo []
          (toSet ((todo.flatMap (·.digests)).map (·.svc) ++ o.transfers.map (·.dst) ++ ([] : List (Nat × Nat)).map (·.1)))
          (toSet (toSet ((todo.flatMap (·.digests)).map (·.svc) ++ o.transfers.map (·.dst) ++ ([] : List (Nat × Nat)).map (·.1)) ++ priv o.s)) [] []
          (fun svc _ => by
            have := limitOf_le o.transfers todo [] svc
            simp only [List.map_nil, List.sum_nil] at this
            unfold tgas at hbud
            omega)
        simp only [] at hpar
        rw [hr] at hpar
        cases hpar
      · rename_i gas new hpar
        have hp := accumulateParallel_spec hex hpar
        simp only [List.map_nil, List.sum_nil] at hp
        unfold tgas at hbud
        rw [checkedSum_ok (by omega), checkedSum_ok (by omega)] at h
        simp only [] at h
        rw [checkedAdd_ok (by omega)] at h
        simp only [] at h
        rw [if_neg (by omega)] at h
        cases h

theorem outerLoop_no_overflow {exec : Exec σ} (hex : ExecOk exec) {next : σ → List Transfer → List Report → σ} {priv : σ → List Nat}
    {reports : List Report} {limit : Nat} : ∀ m o, Sane reports limit o → o.always.getD [] = [] →
    outerLoop exec next priv reports m o ≠ .overflow := by
  intro m
  induction m with
  | zero => intro o _ _ h; cases h
  | succ m ih =>
    intro o hs ha h
    unfold outerLoop at h
    split at h
    · rename_i o1 hit
      have hc := outerIter_continue hex hs hit
      exact ih o1 hc.1 (by rw [hc.2.2.1]; rfl) h
    · exact outerIter_no_overflow hex hs ha h

theorem sane_init (reports : List Report) (s : σ) (limit : Nat) (always : List (Nat × Nat)) (h : limit < U64) :
    Sane reports limit (outerInit s limit always) :=
  ⟨h, Nat.zero_le _, by simp [outerInit, Outer.budget, tgas]⟩

end Fastroll.Acc
