import Verif.Delta.Spec
import Verif.Delta.LemmasGas

/-! # Lemmas: the concrete rounds against the abstract ones of `Acc`, and as `Round`s -/
namespace Fastroll.Delta
open Fastroll.Pvm Fastroll.Svc

variable {W : World} {u : PState Boxes} {ts : List Transfer} {reports : List Acc.Report} {always : List (Nat × Nat)}

/-! ## Services as `Acc` sees them -/

/-- Running a service, for `Acc`; the state carries the transfers with their memos. -/
def exec (W : World) : Acc.Exec (PState Boxes × List Transfer) := fun s svc gas _ rs =>
  if gas < 2 ^ 64 then
    match accumulate W.g (W.env svc s.2 rs) W.mach s.1
        { host := svc, gasLimit := gas, incoming := s.2.filter fun t => t.dst == svc, seed := W.seed svc } with
    | .ok (some r) => some ⟨r.gas, r.transfers.map xfer⟩
    | _ => none
  else none

theorem xfer_gas (ts : List Transfer) : ((ts.map xfer).map (·.gas)).sum = (ts.map Transfer.gas).sum := by
  rw [List.map_map]; rfl

theorem exec_ok : Acc.ExecOk (exec W) := by
  intro s svc g ts rs r h
  unfold exec at h
  split at h
  · rename_i hg
    split at h
    · rename_i r' hr
      cases h
      have := accumulate_pays (a := { host := svc, gasLimit := g, incoming := s.2.filter fun t => t.dst == svc, seed := W.seed svc }) hg hr
      refine ⟨this.1, ?_⟩
      have h2 := this.2
      unfold cost at h2
      rw [xfer_gas, List.length_map]
      exact h2
    · cases h
  · cases h

theorem serviceGas_lt {ts : List Acc.Transfer} {svc v : Nat} (h : Acc.serviceGas ts reports always svc = some v) : v < 2 ^ 64 := by
  unfold Acc.serviceGas at h
  repeat' split at h
  all_goals first
    | (cases h; done)
    | (have := Acc.checkedAdd_some h; exact this.2)

theorem single_ok {svc : Nat} {r : Option AccResult} (h : single W u ts reports always svc = .ok r) :
    ∃ limit, Acc.serviceGas (ts.map xfer) reports always svc = some limit ∧ limit < 2 ^ 64 ∧
      accumulate W.g (W.env svc ts reports) W.mach u
        { host := svc, gasLimit := limit, incoming := ts.filter fun t => t.dst == svc, seed := W.seed svc } = .ok r := by
  unfold single at h
  split at h
  · cases h
  · rename_i limit hl
    refine ⟨limit, hl, serviceGas_lt hl, ?_⟩
    split at h
    · cases h
    · rename_i r' hr; cases h; exact hr

/-- The loop of `Acc` over the services does what the concrete round does. -/
theorem runAll_loop (met : List Nat) : ∀ (S : List Nat) (rs : List AccResult) (gas : List (Nat × Nat)) (new : List Acc.Transfer),
    runAll W u ts reports always S = .ok rs →
    Acc.parallelLoop (exec W) (u, ts) (ts.map xfer) reports always met S gas new =
      some (gas ++ (rs.filter fun r => met.contains r.host).map (fun r => (r.host, r.gas)),
            new ++ ((rs.filter fun r => met.contains r.host).flatMap AccResult.transfers).map xfer) := by
  intro S
  induction S with
  | nil => intro rs gas new h; cases h; simp [Acc.parallelLoop]
  | cons svc S ih =>
    intro rs gas new h
    unfold runAll at h
    cases hs : single W u ts reports always svc with
    | error e => rw [hs] at h; cases h
    | ok r =>
      rw [hs] at h
      simp only at h
      cases hr : runAll W u ts reports always S with
      | error e => rw [hr] at h; cases h
      | ok rs' =>
        rw [hr] at h
        cases h
        obtain ⟨limit, h1, h2, h3⟩ := single_ok hs
        have he : exec W (u, ts) svc limit (List.filter (fun t => t.dst == svc) (ts.map xfer)) reports =
            r.map fun r => ⟨r.gas, r.transfers.map xfer⟩ := by
          unfold exec
          rw [if_pos h2]
          dsimp only
          rw [h3]
          cases r <;> rfl
        unfold Acc.parallelLoop
        rw [h1]
        dsimp only
        rw [he]
        cases r with
        | none =>
          dsimp only [Option.map]
          rw [ih rs' gas new hr]; rfl
        | some r =>
          have hh : r.host = svc := (accumulate_kept h3).1
          dsimp only [Option.map]
          cases c : met.contains svc with
          | true =>
            rw [if_pos rfl, ih rs' _ _ hr]
            have hf : List.filter (fun r => met.contains r.host) ((some r).toList ++ rs') = r :: List.filter (fun r => met.contains r.host) rs' := by
              show List.filter _ (r :: rs') = _
              rw [List.filter_cons, hh, c]; rfl
            rw [hf]
            simp [hh]
          | false =>
            rw [if_neg (by simp), ih rs' _ _ hr]
            have hf : List.filter (fun r => met.contains r.host) ((some r).toList ++ rs') = List.filter (fun r => met.contains r.host) rs' := by
              show List.filter _ (r :: rs') = _
              rw [List.filter_cons, hh, c]; rfl
            rw [hf]

/-- A gas error of the concrete round is one of the abstract loop. -/
theorem runAll_gas (met : List Nat) : ∀ (S : List Nat) (gas : List (Nat × Nat)) (new : List Acc.Transfer),
    runAll W u ts reports always S = .error .gas →
    Acc.parallelLoop (exec W) (u, ts) (ts.map xfer) reports always met S gas new = none := by
  intro S
  induction S with
  | nil => intro gas new h; cases h
  | cons svc S ih =>
    intro gas new h
    unfold runAll at h
    unfold Acc.parallelLoop
    cases hs : single W u ts reports always svc with
    | error e =>
      rw [hs] at h
      cases h
      unfold single at hs
      split at hs
      · rename_i hg; rw [hg]
      · split at hs <;> cases hs
    | ok r =>
      rw [hs] at h
      simp only at h
      obtain ⟨limit, h1, h2, h3⟩ := single_ok hs
      cases hr : runAll W u ts reports always S with
      | ok rs' => rw [hr] at h; cases h
      | error e =>
        rw [hr] at h
        cases h
        rw [h1]
        dsimp only
        repeat' split
        all_goals first
          | rfl
          | exact ih _ _ hr

/-- The state of the loop as `Acc` sees it. -/
def abs (o : Outer) : Acc.Outer (PState Boxes × List Transfer) :=
  { s := (o.p, o.transfers), idx := o.idx, remaining := o.remaining, transfers := o.transfers.map xfer, always := o.always, gasPairs := o.gasPairs }

def priv (s : PState Boxes × List Transfer) : List Nat := privileged s.1

theorem parallel_ok {m : Merged} (h : parallel W u ts reports always = .ok m) :
    ∃ rs, runAll W u ts reports always (services u ts reports always) = .ok rs ∧
      mergeRound W.g W.base (metered ts reports always).contains u rs = some m ∧
      m.gas = (rs.filter fun r => (metered ts reports always).contains r.host).map (fun r => (r.host, r.gas)) ∧
      m.hashes = (rs.filter fun r => (metered ts reports always).contains r.host).flatMap (fun r => (r.hash.map fun h => (r.host, h)).toList) ∧
      m.transfers = (rs.filter fun r => (metered ts reports always).contains r.host).flatMap AccResult.transfers := by
  unfold parallel at h
  split at h
  · cases h
  · rename_i rs hrs
    split at h
    · cases h
    · rename_i m' hm
      cases h
      obtain ⟨a, b, c⟩ := C44_round_reports hm
      exact ⟨rs, hrs, hm, a, b, c⟩

theorem parallel_abs {m : Merged} (h : parallel W u ts reports always = .ok m) :
    Acc.accumulateParallel (exec W) (u, ts) (priv (u, ts)) (ts.map xfer) reports always = some (m.gas, m.transfers.map xfer) := by
  obtain ⟨rs, h1, _, h3, _, h5⟩ := parallel_ok h
  unfold Acc.accumulateParallel
  have := runAll_loop (metered ts reports always) _ rs [] [] h1
  rw [h3, h5]
  exact this

theorem parallel_gas (h : parallel W u ts reports always = .error .gas) :
    Acc.accumulateParallel (exec W) (u, ts) (priv (u, ts)) (ts.map xfer) reports always = none := by
  unfold parallel at h
  split at h
  · rename_i e he
    cases h
    exact runAll_gas _ _ [] [] he
  · split at h <;> cases h

/-- What a round of the loop was. -/
theorem iter_next {reports : List Acc.Report} {o o' : Outer} (h : iter W reports o = .next o') :
    ∃ (n : Nat) (m : Merged),
      n = (if o.idx < reports.length then Acc.maxProcessable (reports.drop o.idx) o.remaining else 0) ∧
      parallel W o.p o.transfers ((reports.drop o.idx).take n) (o.always.getD []) = .ok m ∧
      (m.gas.map (·.2)).sum ≤ o.remaining + (o.transfers.map Transfer.gas).sum ∧
      o' = { p := m.st.u, idx := o.idx + n, remaining := o.remaining + (o.transfers.map Transfer.gas).sum - (m.gas.map (·.2)).sum,
             transfers := m.transfers, always := none,
             gasPairs := o.gasPairs ++ m.gas, outputs := m.hashes.foldl (fun l x => insertPair x l) o.outputs } := by
  unfold iter at h
  dsimp only at h
  split at h
  · cases h
  · generalize hn : (if decide (o.idx < reports.length) = true then Acc.maxProcessable (reports.drop o.idx) o.remaining else 0) = n at h
    split at h
    · cases h
    · have ht : (if n > 0 then (reports.drop o.idx).take n else []) = (reports.drop o.idx).take n := by
        split
        · rfl
        · have : n = 0 := by omega
          rw [this]; rfl
      rw [ht] at h
      split at h
      · cases h
      · rename_i m hm
        split at h
        · rename_i used tg hu htg
          split at h
          · cases h
          · rename_i r hr
            split at h
            · cases h
            · rename_i c3
              cases h
              obtain ⟨e1, _⟩ := Acc.checkedSum_some hu
              obtain ⟨e2, _⟩ := Acc.checkedSum_some htg
              obtain ⟨e3, _⟩ := Acc.checkedAdd_some hr
              rw [xfer_gas] at e2
              subst e1 e2 e3
              refine ⟨n, m, ?_, hm, by omega, rfl⟩
              rw [← hn]
              simp only [decide_eq_true_eq]
        · cases h

section outer
variable {σ : Type} {ex : Acc.Exec σ} {next : σ → List Acc.Transfer → List Acc.Report → σ} {pr : σ → List Nat}
  {a : Acc.Outer σ} {n : Nat}

theorem outerIter_enter {reports : List Acc.Report}
    (hn : (if decide (a.idx < reports.length) = true then Acc.maxProcessable (reports.drop a.idx) a.remaining else 0) = n)
    (c1 : ¬ (!decide (a.idx < reports.length) && !!a.transfers.isEmpty && a.always.isNone) = true)
    (c2 : ¬ (decide (n = 0) && !!a.transfers.isEmpty && (a.always.getD []).isEmpty) = true) :
    Acc.outerIter ex next pr reports a =
      match Acc.accumulateParallel ex a.s (pr a.s) a.transfers (if n > 0 then (reports.drop a.idx).take n else []) (a.always.getD []) with
      | none => .overflow
      | some (gas, new) =>
        match Acc.checkedSum 0 (gas.map (·.2)), Acc.checkedSum 0 (a.transfers.map (·.gas)) with
        | some used, some tgas =>
          match Acc.checkedAdd a.remaining tgas with
          | none => .overflow
          | some r =>
            if used > r then .overflow
            else .continue { s := next a.s a.transfers (if n > 0 then (reports.drop a.idx).take n else []), idx := a.idx + n, remaining := r - used,
                             transfers := new, always := none, gasPairs := a.gasPairs ++ gas }
        | _, _ => .overflow := by
  subst hn
  unfold Acc.outerIter
  dsimp only
  refine (if_neg c1).trans ?_
  exact if_neg c2
end outer

theorem isEmpty_xfer (ts : List Transfer) : (ts.map xfer).isEmpty = ts.isEmpty := by cases ts <;> rfl

theorem iter_abs {reports : List Acc.Report} {o o' : Outer} (h : iter W reports o = .next o') :
    ∃ next, Acc.outerIter (exec W) next priv reports (abs o) = .continue (abs o') := by
  refine ⟨fun _ _ _ => (o'.p, o'.transfers), ?_⟩
  unfold iter at h
  dsimp only at h
  rw [← isEmpty_xfer] at h
  split at h
  · cases h
  · rename_i c1
    generalize hn : (if decide (o.idx < reports.length) = true then Acc.maxProcessable (reports.drop o.idx) o.remaining else 0) = n at h
    split at h
    · cases h
    · rename_i c2
      rw [outerIter_enter (a := abs o) (n := n) hn c1 c2]
      split at h
      · cases h
      · rename_i m hm
        have hp : Acc.accumulateParallel (exec W) (abs o).s (priv (abs o).s) (abs o).transfers
          (if n > 0 then (reports.drop (abs o).idx).take n else []) ((abs o).always.getD []) = some (m.gas, m.transfers.map xfer) := parallel_abs hm
        rw [hp]
        dsimp only
        split at h
        · rename_i used tg hu ht
          have ht' : Acc.checkedSum 0 ((abs o).transfers.map (·.gas)) = some tg := ht
          rw [hu, ht']
          dsimp only
          split at h
          · cases h
          · rename_i r hr
            have hr' : Acc.checkedAdd (abs o).remaining tg = some r := hr
            rw [hr']
            dsimp only
            split at h
            · cases h
            · rename_i c3
              rw [if_neg c3]
              cases h
              rfl
        · cases h

theorem iter_gas {reports : List Acc.Report} {o : Outer} (h : iter W reports o = .fail .gas) :
    Acc.outerIter (exec W) (fun s _ _ => s) priv reports (abs o) = .overflow := by
  unfold iter at h
  dsimp only at h
  rw [← isEmpty_xfer] at h
  split at h
  · cases h
  · rename_i c1
    generalize hn : (if decide (o.idx < reports.length) = true then Acc.maxProcessable (reports.drop o.idx) o.remaining else 0) = n at h
    split at h
    · cases h
    · rename_i c2
      rw [outerIter_enter (a := abs o) (n := n) hn c1 c2]
      split at h
      · rename_i e he
        cases h
        have hp : Acc.accumulateParallel (exec W) (abs o).s (priv (abs o).s) (abs o).transfers
          (if n > 0 then (reports.drop (abs o).idx).take n else []) ((abs o).always.getD []) = none := parallel_gas he
        rw [hp]
      · rename_i m hm
        have hp : Acc.accumulateParallel (exec W) (abs o).s (priv (abs o).s) (abs o).transfers
          (if n > 0 then (reports.drop (abs o).idx).take n else []) ((abs o).always.getD []) = some (m.gas, m.transfers.map xfer) := parallel_abs hm
        rw [hp]
        dsimp only
        split at h
        · rename_i used tg hu ht
          have ht' : Acc.checkedSum 0 ((abs o).transfers.map (·.gas)) = some tg := ht
          rw [hu, ht']
          dsimp only
          split at h
          · rename_i hr
            have hr' : Acc.checkedAdd (abs o).remaining tg = none := hr
            rw [hr']
          · rename_i r hr
            have hr' : Acc.checkedAdd (abs o).remaining tg = some r := hr
            rw [hr']
            dsimp only
            split at h
            · rename_i c3; rw [if_pos c3]
            · cases h
        · rename_i hno
          split
          · rename_i used tg hu ht
            exact absurd ht (hno _ _ hu)
          · rfl

theorem iter_stop {reports : List Acc.Report} {o o' : Outer} (h : iter W reports o = .stop o') :
    o' = { o with always := none } ∧ o.transfers = [] ∧ o.always.getD [] = [] ∧
      (o.idx < reports.length → Acc.maxProcessable (reports.drop o.idx) o.remaining = 0) := by
  unfold iter at h
  dsimp only at h
  split at h
  · rename_i c1
    cases h
    simp only [Bool.and_eq_true, Bool.not_eq_true', decide_eq_false_iff_not, Bool.not_not, List.isEmpty_iff, Option.isNone_iff_eq_none] at c1
    refine ⟨?_, c1.1.2, by rw [c1.2]; rfl, fun hh => absurd hh c1.1.1⟩
    rw [← c1.2]
  · generalize hn : (if decide (o.idx < reports.length) = true then Acc.maxProcessable (reports.drop o.idx) o.remaining else 0) = n at h
    split at h
    · rename_i c2
      cases h
      simp only [Bool.and_eq_true, decide_eq_true_eq, Bool.not_not, List.isEmpty_iff] at c2
      refine ⟨rfl, c2.1.2, c2.2, fun hh => ?_⟩
      rw [if_pos (by simpa using hh)] at hn
      rw [hn]; exact c2.1.1
    · repeat' split at h
      all_goals cases h

/-! ## The rounds -/

theorem existsActive_alive (g : Global) (bs : Boxes) (s : Nat) : (existsActive g bs s).1 = true ↔ Alive g bs s := by
  unfold existsActive Alive ensure
  cases hb : boxGet bs s with
  | some b => simp [hb]
  | none =>
    cases hg : g.metas s with
    | none => simp [hb]
    | some m =>
      simp only [boxGet_set, if_pos]
      simp [Box.fromClean, Entry.fromClean]

theorem accumulate_none {a : AccArgs} {env : Env} {mach : Machine} {g : Global} (h : accumulate g env mach u a = .ok none) :
    ¬ Alive g u.boxes a.host := by
  rw [← existsActive_alive]
  unfold accumulate at h
  split at h
  · rename_i hx; rw [hx]; simp
  · exfalso
    split at h
    · cases h
    · split at h
      · cases h
      · cases h
      · split at h
        · cases h
        · split at h
          · dsimp only at h
            split at h <;> cases h
          · cases h

theorem accumulate_alive {a : AccArgs} {env : Env} {mach : Machine} {g : Global} {r : AccResult} (h : accumulate g env mach u a = .ok (some r)) :
    Alive g u.boxes a.host := by
  rw [← existsActive_alive]
  unfold accumulate at h
  split at h
  · cases h
  · rename_i hx; rw [hx]

/-- The results of a round. -/
theorem runAll_spec : ∀ (S : List Nat) (rs : List AccResult), S.Pairwise (· < ·) → runAll W u ts reports always S = .ok rs →
    (rs.map AccResult.host).Pairwise (· < ·) ∧
    (∀ s, s ∈ rs.map AccResult.host ↔ s ∈ S ∧ Alive W.g u.boxes s) ∧
    ∀ r ∈ rs, ∃ limit, Acc.serviceGas (ts.map xfer) reports always r.host = some limit ∧ limit < 2 ^ 64 ∧
      accumulate W.g (W.env r.host ts reports) W.mach u
        { host := r.host, gasLimit := limit, incoming := ts.filter fun t => t.dst == r.host, seed := W.seed r.host } = .ok (some r) := by
  intro S
  induction S with
  | nil => intro rs _ h; cases h; exact ⟨.nil, by simp, by simp⟩
  | cons svc S ih =>
    intro rs hp h
    unfold runAll at h
    cases hs : single W u ts reports always svc with
    | error e => rw [hs] at h; cases h
    | ok r =>
      rw [hs] at h
      simp only at h
      cases hr : runAll W u ts reports always S with
      | error e => rw [hr] at h; cases h
      | ok rs' =>
        rw [hr] at h
        cases h
        obtain ⟨limit, h1, h2, h3⟩ := single_ok hs
        obtain ⟨hp1, hp2⟩ := List.pairwise_cons.1 hp
        obtain ⟨i1, i2, i3⟩ := ih rs' hp2 hr
        cases r with
        | none =>
          refine ⟨i1, fun s => ?_, i3⟩
          show s ∈ rs'.map AccResult.host ↔ _
          rw [i2 s, List.mem_cons]
          constructor
          · rintro ⟨a, b⟩; exact ⟨.inr a, b⟩
          · rintro ⟨a | a, b⟩
            · subst a; exact absurd b (accumulate_none h3)
            · exact ⟨a, b⟩
        | some r =>
          have hh : r.host = svc := (accumulate_kept h3).1
          refine ⟨?_, fun s => ?_, ?_⟩
          · show ((r :: rs').map AccResult.host).Pairwise (· < ·)
            rw [List.map_cons, List.pairwise_cons]
            refine ⟨fun s hs => ?_, i1⟩
            rw [hh]
            exact hp1 s ((i2 s).1 hs).1
          · show s ∈ (r :: rs').map AccResult.host ↔ _
            rw [List.map_cons, List.mem_cons, List.mem_cons, i2 s, hh]
            constructor
            · rintro (a | ⟨a, b⟩)
              · subst a; exact ⟨.inl rfl, accumulate_alive h3⟩
              · exact ⟨.inr a, b⟩
            · rintro ⟨a | a, b⟩
              · exact .inl a
              · exact .inr ⟨a, b⟩
          · intro r' hr'
            rcases List.mem_cons.1 hr' with c | c
            · subst c
              rw [hh]
              exact ⟨limit, h1, h2, h3⟩
            · exact i3 r' c

theorem mem_metered (s : Nat) : s ∈ metered ts reports always ↔
    (∃ r ∈ reports, ∃ d ∈ r.digests, d.svc = s) ∨ (∃ t ∈ ts, t.dst = s) ∨ ∃ e ∈ always, e.1 = s := by
  unfold metered
  rw [Acc.toSet_mem]
  simp only [List.mem_append, List.mem_map, List.mem_flatMap]
  constructor
  · rintro ((⟨d, ⟨r, hr, hd⟩, e⟩ | ⟨t, ⟨t', ht', e'⟩, e⟩) | ⟨e, he, e'⟩)
    · exact .inl ⟨r, hr, d, hd, e⟩
    · subst e'; exact .inr (.inl ⟨t', ht', e⟩)
    · exact .inr (.inr ⟨e, he, e'⟩)
  · rintro (⟨r, hr, d, hd, e⟩ | ⟨t, ht, e⟩ | ⟨e, he, e'⟩)
    · exact .inl (.inl ⟨d, ⟨r, hr, hd⟩, e⟩)
    · exact .inl (.inr ⟨xfer t, ⟨t, ht, rfl⟩, e⟩)
    · exact .inr ⟨e, he, e'⟩

theorem filter_xfer_gas (svc : Nat) : (((ts.map xfer).filter fun t => t.dst == svc).map (·.gas)).sum =
    ((ts.filter fun t => t.dst == svc).map Transfer.gas).sum := by
  rw [List.filter_map, List.map_map]; rfl

/-- A round that is merged is faithful. -/
theorem parallel_faithful {m : Merged} (h : parallel W u ts reports always = .ok m) :
    ∃ R : Round, R.start = u ∧ R.finish = m.st.u ∧ R.delivered = ts ∧ R.reports = reports ∧ R.always = always ∧ R.sent = m.transfers ∧
      R.Faithful W ∧ m.gas = R.counted.map (fun r => (r.host, r.gas)) ∧ m.hashes = R.outputs := by
  obtain ⟨rs, h1, h2, h3, h4, h5⟩ := parallel_ok h
  refine ⟨⟨u, m.st.u, ts, reports, always, rs, m.transfers⟩, rfl, rfl, rfl, rfl, rfl, rfl, ?_⟩
  generalize hR : (⟨u, m.st.u, ts, reports, always, rs, m.transfers⟩ : Round) = R
  have hcall : ∀ s, (metered ts reports always).contains s = decide (R.Called s) := by
    intro s
    rw [Bool.eq_iff_iff, List.contains_iff_mem, mem_metered, decide_eq_true_iff]
    subst hR; rfl
  have hf : (fun r : AccResult => (metered ts reports always).contains r.host) = fun r => decide (R.Called r.host) := funext fun r => hcall r.host
  rw [hf] at h3 h4 h5
  have hrs : R.results = rs := by subst hR; rfl
  have hcount : R.counted = rs.filter fun r => decide (R.Called r.host) := by unfold Round.counted; rw [hrs]
  obtain ⟨a1, a2, a3⟩ := runAll_spec _ rs (Acc.toSet_sorted _) h1
  refine ⟨⟨by rw [hrs]; exact a1, ?_, ?_, ?_, ?_⟩, by rw [hcount]; exact h3, by unfold Round.outputs; rw [hcount]; exact h4⟩
  · intro s
    have hst : R.start = u := by subst hR; rfl
    rw [hrs, a2 s, hst]
    have : s ∈ services u ts reports always ↔ (R.Called s ∨ R.Privileged s) := by
      unfold services
      rw [Acc.toSet_mem, List.mem_append]
      have e1 : s ∈ metered ts reports always ↔ R.Called s := by rw [mem_metered]; subst hR; rfl
      have e2 : s ∈ privileged u ↔ R.Privileged s := by
        unfold privileged Round.Privileged
        rw [hst]
        simp only [List.mem_append, List.mem_cons, List.not_mem_nil, or_false]
      rw [e1, e2]
    exact and_congr_left fun _ => this
  · intro r hr
    rw [hrs] at hr
    obtain ⟨limit, b1, b2, b3⟩ := a3 r hr
    have hl : limit = R.limit r.host := by
      rw [Acc.serviceGas_some b1]
      unfold Acc.limitOf Round.limit
      rw [filter_xfer_gas]
      subst hR; rfl
    rw [← hl]
    subst hR
    exact ⟨b2, b3⟩
  · have : (fun s => decide (R.Called s)) = (metered ts reports always).contains := funext fun s => (hcall s).symm
    rw [this]
    subst hR
    show Option.map _ (mergeRound W.g W.base _ u rs) = _
    rw [h2]; rfl
  · rw [hcount, ← h5]; subst hR; rfl

end Fastroll.Delta
