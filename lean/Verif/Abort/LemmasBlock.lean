import Verif.Abort.LemmasMerge
import Verif.Abort.LemmasLocal
import Verif.Delta.LemmasLoop

/-! # Lemmas: why the accumulation of a block fails -/
namespace Fastroll.Abort
open Fastroll.Pvm Fastroll.Svc Fastroll.Delta
variable {W : World} {D : Nat → Prop} {K : Consts} {χ : Chi} {queues : List (List Bytes)} {reports : List Acc.Report}

theorem Leads.snoc : ∀ {Rs : List Delta.Round} {u ts v us} {R : Delta.Round}, Leads u ts Rs v us → R.start = v → R.delivered = us → Leads u ts (Rs ++ [R]) R.finish R.sent
  | [], _, _, _, _, _, h, e1, e2 => ⟨e1.trans h.1.symm, e2.trans h.2.symm, rfl, rfl⟩
  | _ :: _, _, _, _, _, _, h, e1, e2 => ⟨h.1, h.2.1, Leads.snoc h.2.2 e1 e2⟩

theorem accumulate_alive_err {g : Global} {env : Env} {mach : Machine} {u : PState Boxes} {a : AccArgs} {e : VmErr} (h : accumulate g env mach u a = .error e) :
    Alive g u.boxes a.host := by
  rw [← existsActive_alive]
  unfold accumulate at h
  split at h
  · cases h
  · rename_i hx; rw [hx]

theorem runAll_err {u : PState Boxes} {ts : List Transfer} {todo : List Acc.Report} {always : List (Nat × Nat)} {e : Delta.Err} :
    ∀ (S : List Nat), runAll W u ts todo always S = .error e → e = .gas ∨ ∃ s ∈ S, ∃ limit v, Acc.serviceGas (ts.map xfer) todo always s = some limit ∧
      accumulate W.g (W.env s ts todo) W.mach u { host := s, gasLimit := limit, incoming := ts.filter fun t => t.dst == s, seed := W.seed s } = .error v ∧
      e = .service v
  | [], h => by cases h
  | s :: S, h => by
    unfold runAll at h
    cases h1 : single W u ts todo always s with
    | error e' =>
      rw [h1] at h
      cases h
      unfold single at h1
      split at h1
      · cases h1; exact .inl rfl
      · rename_i limit hl
        split at h1
        · rename_i v hv
          cases h1
          exact .inr ⟨s, List.mem_cons_self .., limit, v, hl, hv, rfl⟩
        · cases h1
    | ok r =>
      rw [h1] at h
      dsimp only at h
      cases h2 : runAll W u ts todo always S with
      | error e' =>
        rw [h2] at h
        cases h
        rcases runAll_err S h2 with k | ⟨s', k1, k2⟩
        · exact .inl k
        · exact .inr ⟨s', List.mem_cons_of_mem _ k1, k2⟩
      | ok rs => rw [h2] at h; cases h

theorem iter_fail {o : Outer} {e : Delta.Err} (h : Delta.iter W reports o = .fail e) :
    e = .gas ∨ ∃ n, parallel W o.p o.transfers ((reports.drop o.idx).take n) (o.always.getD []) = .error e := by
  unfold Delta.iter at h
  dsimp only at h
  split at h
  · cases h
  · generalize hn : (if decide (o.idx < reports.length) = true then Acc.maxProcessable (reports.drop o.idx) o.remaining else 0) = n at h
    split at h
    · cases h
    · have ht : (if n > 0 then (reports.drop o.idx).take n else []) = (reports.drop o.idx).take n := by
        split
        · rfl
        · have : n = 0 := by omega
          rw [this]; rfl
      rw [ht] at h
      split at h
      · rename_i e' hp; cases h; exact .inr ⟨n, hp⟩
      · repeat' split at h
        all_goals first | (cases h; exact .inl rfl) | cases h

theorem mem_services {u : PState Boxes} {ts : List Transfer} {todo : List Acc.Report} {always : List (Nat × Nat)} {R : Delta.Round} (h1 : R.start = u) (h2 : R.delivered = ts)
    (h3 : R.reports = todo) (h4 : R.always = always) (s : Nat) : s ∈ services u ts todo always ↔ (R.Called s ∨ R.Privileged s) := by
  subst h1 h2 h3 h4
  unfold services
  rw [Acc.toSet_mem, List.mem_append]
  have e1 : s ∈ metered R.delivered R.reports R.always ↔ R.Called s := by rw [mem_metered]; rfl
  have e2 : s ∈ privileged R.start ↔ R.Privileged s := by
    unfold privileged Round.Privileged
    simp only [List.mem_append, List.mem_cons, List.not_mem_nil, or_false]
  rw [e1, e2]

theorem limit_of {ts : List Transfer} {todo : List Acc.Report} {always : List (Nat × Nat)} {R : Delta.Round} (h2 : R.delivered = ts)
    (h3 : R.reports = todo) (h4 : R.always = always) {s limit : Nat} (h : Acc.serviceGas (ts.map xfer) todo always s = some limit) : limit = R.limit s := by
  subst h2 h3 h4
  rw [Acc.serviceGas_some h]
  unfold Acc.limitOf Round.limit
  rw [filter_xfer_gas]
  rfl

/-- What holds between rounds. -/
structure Stage (W : World) (D : Nat → Prop) (cores limit : Nat) (χ : Chi) (queues : List (List Bytes)) (reports : List Acc.Report) (Rs : List Delta.Round) (o : Outer) : Prop where
  faithful : ∀ R ∈ Rs, R.Faithful W
  leads : Leads (start χ queues) [] Rs o.p o.transfers
  took : Rs.flatMap (·.reports) = reports.take o.idx
  always : o.always.getD [] = if Rs.isEmpty then χ.always else []
  sane : Acc.Sane reports limit (abs o)
  fit : Fit W.g D o.p.boxes
  tokens : ∃ n, Held (view W.g o.p.boxes) n ∧ n + inFlight o.transfers < U64
  slots : ∀ s, SlotsAt W.base.slot (view W.g o.p.boxes) s
  sized : Sized cores o.p

variable {cores limit : Nat} {Rs : List Delta.Round} {o o' : Outer}

theorem Stage.upcoming (S : Stage W D cores limit χ queues reports Rs o) (n : Nat) (f : PState Boxes) (rs : List AccResult) (sent : List Transfer) :
    Upcoming χ queues reports Rs ⟨o.p, f, o.transfers, (reports.drop o.idx).take n, o.always.getD [], rs, sent⟩ := by
  refine ⟨S.leads, ?_, S.always⟩
  show Rs.flatMap (·.reports) ++ (reports.drop o.idx).take n <+: reports
  rw [S.took, ← List.take_add]
  exact List.take_prefix _ _

theorem Stage.next (S : Stage W D cores limit χ queues reports Rs o) (G : Given W K χ) (hc : cores = χ.assign.length) (hD : ∀ s, W.g.metas s = none → D s)
    (T : Tame W D χ queues reports) (h : Delta.iter W reports o = .next o') : ∃ R, Stage W D cores limit χ queues reports (Rs ++ [R]) o' := by
  obtain ⟨n, m, hn, hm, hu, he⟩ := iter_next h
  obtain ⟨next, hab⟩ := iter_abs h
  have hs' := (Acc.outerIter_continue exec_ok S.sane hab).1
  obtain ⟨R, r1, r2, r3, r4, r5, r6, r7, r8, r9⟩ := parallel_faithful hm
  have up := S.upcoming n R.finish R.results R.sent
  have eR : (⟨o.p, R.finish, o.transfers, (reports.drop o.idx).take n, o.always.getD [], R.results, R.sent⟩ : Delta.Round) = R := by
    rw [← r1, ← r3, ← r4, ← r5]
  rw [eR] at up
  obtain ⟨n0, H0, hn0⟩ := S.tokens
  have F : Fit W.g D R.start.boxes := by rw [r1]; exact S.fit
  have H0 : Held (view W.g R.start.boxes) n0 := by rw [r1]; exact H0
  have hin : inFlight R.delivered < U64 := by rw [r3]; omega
  have due : ∀ r ∈ R.results, Due W R r.host := fun r hr => (r7.who r.host).1 (List.mem_map_of_mem hr)
  have hr : ∀ r ∈ R.results, D r.host := fun r hr => (T Rs R S.faithful up _ (due r hr)).1
  have C : R.Careful W D := fun r hr => (T Rs R S.faithful up _ (due r hr)).2
  obtain ⟨k1, k2⟩ := round_ok G.healthy hD hr r7 C F H0 hin
  obtain ⟨n1, l1, l2⟩ := k1.tokens r7 H0
  have sl := (slots_local W.base.slot).round (Q := SlotsAt W.base.slot) rfl G.slot G.healthy hD hr r7 C F H0 hin (fun s k ts h => G.slots s k ts h) (by rw [r1]; exact S.slots)
  have ep : o'.p = R.finish := by rw [he]; exact r2.symm
  have et : o'.transfers = R.sent := by rw [he]; exact r6.symm
  refine ⟨R, ?_, ?_, ?_, ?_, hs', by rw [ep]; exact k2, ?_, by rw [ep]; exact sl, ?_⟩
  · intro R' hR'
    rcases List.mem_append.1 hR' with k | k
    · exact S.faithful R' k
    · rw [List.mem_singleton.1 k]; exact r7
  · rw [ep, et]; exact S.leads.snoc r1 r3
  · rw [List.flatMap_append, S.took]
    simp only [List.flatMap_cons, List.flatMap_nil, List.append_nil]
    rw [r4, ← List.take_add, he]
  · rw [he]; simp
  · rw [ep, et]
    refine ⟨n1, l1, ?_⟩
    rw [r3] at l2
    omega
  · rw [ep]
    refine round_sized r7 (fun s ts rs => (G.cores s ts rs).trans hc.symm) ?_
    rw [r1]; exact S.sized

theorem Stage.fail (S : Stage W D cores limit χ queues reports Rs o) (G : Given W K χ) (hc : cores = χ.assign.length) (hD : ∀ s, W.g.metas s = none → D s)
    (T : Tame W D χ queues reports) {e : Delta.Err} (h : Delta.iter W reports o = .fail e) : ∃ R, Upcoming χ queues reports Rs R ∧ Cause W R e := by
  by_cases hg : e = .gas
  · subst hg
    refine ⟨_, S.upcoming 0 o.p [] [], .gas fun ha => ?_⟩
    exact Acc.outerIter_no_overflow exec_ok S.sane ha (iter_gas h)
  rcases iter_fail h with k | ⟨n, hp⟩
  · exact absurd k hg
  obtain ⟨n0, H0, hn0⟩ := S.tokens
  unfold parallel at hp
  split at hp
  · rename_i e' hr
    cases hp
    rcases runAll_err _ hr with k | ⟨s, k1, limit, v, k2, k3, k4⟩
    · exact absurd k hg
    subst k4
    have up := S.upcoming n o.p [] []
    refine ⟨_, up, ?_⟩
    generalize hR : (⟨o.p, o.p, o.transfers, (reports.drop o.idx).take n, o.always.getD [], [], []⟩ : Delta.Round) = R at up
    have e1 : R.start = o.p := by rw [← hR]
    have e2 : R.delivered = o.transfers := by rw [← hR]
    have e3 : R.reports = (reports.drop o.idx).take n := by rw [← hR]
    have e4 : R.always = o.always.getD [] := by rw [← hR]
    have hl := limit_of e2 e3 e4 k2
    have due : Due W R s := ⟨(mem_services e1 e2 e3 e4 s).1 k1, by rw [e1]; exact accumulate_alive_err k3⟩
    have T' := T Rs R S.faithful up s due
    refine .service s v due ?_
    refine accumulate_blame G.healthy hD G.laid (e := v) ⟨by rw [e1]; exact S.fit, T'.1, ⟨n0, by rw [e1]; exact H0, ?_⟩, ?_, ?_⟩ T'.2 ?_
    · have := inFlight_filter (fun t => t.dst == s) R.delivered
      rw [e2] at this
      simp only [args]
      rw [e2]
      omega
    · rw [G.slot, e1]; exact fun s k ts h => S.slots s k ts h
    · rw [G.cores, e1, ← hc]; exact S.sized
    · unfold args
      rw [← hl, e1, e2, e3]; exact k3
  · rename_i rs hr
    split at hp
    · rename_i hm
      cases hp
      have up := S.upcoming n o.p rs []
      refine ⟨_, up, ?_⟩
      generalize hR : (⟨o.p, o.p, o.transfers, (reports.drop o.idx).take n, o.always.getD [], rs, []⟩ : Delta.Round) = R at up
      have e1 : R.start = o.p := by rw [← hR]
      have e2 : R.delivered = o.transfers := by rw [← hR]
      have e3 : R.reports = (reports.drop o.idx).take n := by rw [← hR]
      have e4 : R.always = o.always.getD [] := by rw [← hR]
      obtain ⟨a1, a2, a3⟩ := runAll_spec _ rs (Acc.toSet_sorted _) hr
      have due : ∀ r ∈ rs, Due W R r.host := fun r h => by
        obtain ⟨b1, b2⟩ := (a2 r.host).1 (List.mem_map_of_mem h)
        exact ⟨(mem_services e1 e2 e3 e4 _).1 b1, by rw [e1]; exact b2⟩
      have run : ∀ r ∈ rs, accumulate W.g (W.env r.host R.delivered R.reports) W.mach R.start (args W R r.host) = .ok (some r) := fun r h => by
        obtain ⟨limit, b1, b2, b3⟩ := a3 r h
        unfold args
        rw [← limit_of e2 e3 e4 b1, e1, e2, e3]; exact b3
      have hin : inFlight R.delivered < U64 := by rw [e2]; omega
      have F : Fit W.g D R.start.boxes := by rw [e1]; exact S.fit
      have H0 : Held (view W.g R.start.boxes) n0 := by rw [e1]; exact H0
      have key : ∀ r ∈ rs, _ := fun r hr' =>
        result_ok G.healthy hD (a := args W R r.host) F (T Rs R S.faithful up _ (due r hr')).1 (Nat.lt_of_le_of_lt (inFlight_filter _ _) hin) (run r hr')
          (T Rs R S.faithful up _ (due r hr')).2 H0
      have Dr : ∀ r ∈ rs, D r.host := fun r hr' => (T Rs R S.faithful up _ (due r hr')).1
      have O : RoundOk W.g D R.start rs := by
        refine ⟨F.good, fun r h => (key r h).1.good, a1.imp fun h => Nat.ne_of_lt h, fun r h => (key r h).2.1, fun r h => (key r h).2.2.1, ?_, ?_⟩
        · intro r h r' h'
          obtain ⟨_, _, k3, k4, k5, _⟩ := key r h
          by_cases e : r'.host = r.host
          · rw [e]; exact k5
          · have ha := (key r' h').2.2.1
            simp only [args] at ha k4
            rcases k4 r'.host e with k | k | k
            · rw [k]; exact ha
            · rw [k.1] at ha; cases ha
            · exact absurd (Dr r' h') k.2
        · intro r h s hs hn
          obtain ⟨_, _, k3, k4, k5, _⟩ := key r h
          have e : s ≠ r.host := fun e => by rw [e] at hn; simp only [args] at k3; rw [hn] at k3; cases k3
          rcases k4 s e with k | k | k
          · rw [k]; exact hn
          · exact absurd k.2 hs
          · exact k.1
      obtain ⟨r, m1, r', m2, m3, s, m4, m5⟩ := mergeRound_none (cores := cores) G.healthy.sound.orphans O F (fun r h => (key r h).1)
        (fun r h => by
          have := accumulate_sized (run r h) (by rw [G.cores, ← hc, e1]; exact S.sized)
          rwa [G.cores, ← hc] at this) (by rw [e1]; exact hm)
      exact .clash r r' s (due r m1) (due r' m2) m3 (run r m1) (run r' m2) m4 m5
    · cases hp

theorem loop_cause (G : Given W K χ) (hc : cores = χ.assign.length) (hD : ∀ s, W.g.metas s = none → D s) (T : Tame W D χ queues reports) {e : Delta.Err} (hf : e ≠ .fuel) :
    ∀ (fuel : Nat) (Rs : List Delta.Round) (o : Outer), Stage W D cores limit χ queues reports Rs o → loop W reports fuel o = .error e →
    ∃ Rs R, (∀ R' ∈ Rs, R'.Faithful W) ∧ Upcoming χ queues reports Rs R ∧ Cause W R e
  | 0, _, _, _, h => by cases h; exact absurd rfl hf
  | fuel + 1, Rs, o, S, h => by
    unfold loop at h
    cases hit : Delta.iter W reports o with
    | stop o' => rw [hit] at h; cases h
    | fail e' =>
      rw [hit] at h
      cases h
      obtain ⟨R, k1, k2⟩ := S.fail G hc hD T hit
      exact ⟨Rs, R, S.faithful, k1, k2⟩
    | next o' =>
      rw [hit] at h
      obtain ⟨R, S'⟩ := S.next G hc hD T hit
      exact loop_cause G hc hD T hf fuel (Rs ++ [R]) o' S' h

theorem stage_start (G : Given W K χ) : Stage W D χ.assign.length (Acc.blockGas K.total K.perCore K.cores χ.always) χ queues reports [] (init K χ queues) := by
  refine ⟨by simp, ⟨rfl, rfl⟩, rfl, rfl, ?_, fit_start G.healthy, ?_, fun s k ts h => G.slots s k ts h, ⟨rfl, nofun, nofun⟩⟩
  · exact ⟨Nat.max_lt.2 ⟨G.total, Nat.mod_lt _ (by decide)⟩, Nat.zero_le _, by simp [abs, init, Acc.Outer.budget, Acc.tgas]⟩
  · obtain ⟨n, h1, h2⟩ := G.tokens
    exact ⟨n, h1, by simpa [init, inFlight] using h2⟩

end Fastroll.Abort
