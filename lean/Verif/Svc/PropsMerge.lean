import Verif.Svc.ExMerge
import Verif.Svc.LemmasTok

/-!
# C20, C23, C24, C44: one accumulation, and the merge of the accumulations of a round

`accumulate` is one service, `mergeRound` the merge of the results of the services that ran in
parallel from the same state `u`.
-/
namespace Fastroll.Svc
open Fastroll.Pvm

variable {g : Global} {D : Nat → Prop} {env : Env} {metered : Nat → Bool} {u : PState Boxes} {rs : List AccResult} {m : Merged}

/-! ## C23 -/

/-- **Checkpoints.** After any calls that are not aborted, the exceptional context is what the regular
one was right after the last checkpoint (at the start, if there was none). -/
theorem C23_checkpoint_saved {β : Type} {S : Store β} {cs : List (Nat × VM)} {q q' : Pair β} (hq : q.y = q.x)
    (h : runCalls (accHost S env) cs q = some q') :
    ∃ pre s, LastSave cs pre ∧ runCalls (accHost S env) pre q = some s ∧ s.x = q'.y := calls_lastSave hq h

/-- **Roll back or keep.** An accumulation that is not aborted either ran no code, and has no effect but
the tokens received; or made host calls `cs` from a fresh context `q0`, and its effect is the state
after all of them if it halted, and after the last checkpoint if it panicked or ran out of gas. -/
theorem C23_effect {mach : Machine} {p : PState Boxes} {a : AccArgs} {r : AccResult}
    (h : accumulate g env mach p a = .ok (some r)) :
    (∃ bs, r = { host := a.host, p := { p with boxes := boxOnly bs a.host } }) ∨
    ∃ prog init bs id out used q' cs, let x0 := freshCtx a.host { p with boxes := bs } id
      (x0.host = a.host ∧ x0.p = { p with boxes := bs } ∧ x0.transfers = [] ∧ x0.provided = [] ∧ x0.yielded = none) ∧
      invokeWithArgs prog (accHost (boxStore g) env) init 5 a.gasLimit { x := x0, y := x0 } = (.ok (out, used), q') ∧
      runCalls (accHost (boxStore g) env) cs { x := x0, y := x0 } = some q' ∧ r.gas = used ∧
      ∃ pre s, runCalls (accHost (boxStore g) env) pre { x := x0, y := x0 } = some s ∧
        r.p = s.x.p ∧ r.transfers = s.x.transfers ∧ r.provided = s.x.provided ∧
        (if out = .panic ∨ out = .outOfGas then LastSave cs pre ∧ r.hash = s.x.yielded
         else pre = cs ∧ (r.hash = s.x.yielded ∨ ∃ bs, out = .bytes bs ∧ bs.length = 32 ∧ r.hash = some bs)) := by
  rcases accumulate_cases h with ⟨bs, e⟩ | ⟨bs, id, prog, init, out, used, q', e1, e2⟩
  · exact .inl ⟨bs, e⟩
  · right
    obtain ⟨cs, hcs⟩ := invoke_trace e1
    obtain ⟨pre, s, p1, p2, p3⟩ := calls_lastSave rfl hcs
    subst e2
    cases out with
    | outOfGas => exact ⟨prog, init, bs, id, _, used, q', cs, ⟨rfl, rfl, rfl, rfl, rfl⟩, e1, hcs, rfl, pre, s, p2, p3 ▸ rfl, p3 ▸ rfl, p3 ▸ rfl, p1, p3 ▸ rfl⟩
    | panic => exact ⟨prog, init, bs, id, _, used, q', cs, ⟨rfl, rfl, rfl, rfl, rfl⟩, e1, hcs, rfl, pre, s, p2, p3 ▸ rfl, p3 ▸ rfl, p3 ▸ rfl, p1, p3 ▸ rfl⟩
    | unavailable => exact ⟨prog, init, bs, id, _, used, q', cs, ⟨rfl, rfl, rfl, rfl, rfl⟩, e1, hcs, rfl, cs, q', hcs, rfl, rfl, rfl, rfl, .inl rfl⟩
    | bytes o =>
      refine ⟨prog, init, bs, id, _, used, q', cs, ⟨rfl, rfl, rfl, rfl, rfl⟩, e1, hcs, rfl, cs, q', hcs, rfl, rfl, rfl, rfl, ?_⟩
      show (if o.length = 32 then some o else q'.x.yielded) = _ ∨ _
      by_cases c : o.length = 32
      · rw [if_pos c]; exact .inr ⟨o, rfl, c, if_pos c⟩
      · rw [if_neg c]; exact .inl rfl

example : (Ex.pair Ex.g).y = (Ex.pair Ex.g).x ∧ (runCalls (accHost mapStore Ex.env) [Ex.write, Ex.transfer] (Ex.pair Ex.g)).isSome := ⟨rfl, by decide +kernel⟩

/-- Service 5 writes `[1] ↦ [9, 8, 7]`, saves, writes the same key again to nothing, and traps: the
value of the checkpoint is what stays. -/
def ExM.saver : Machine := { ExM.machine (fun _ => ([4, 17, 99], ExM.vm 32 1 33 3 0 0)) with
  load := fun _ => (loadParts ([0, 0, 0, 0, 0] ++ [10, 4, 10, 17] ++ [51, 7, 32, 51, 10, 0] ++ [10, 4] ++ [0])
    (List.replicate 5 true ++ [true, false, true, false] ++ [true, false, false, true, false, false] ++ [true, false, true]) []).toOption.map fun p =>
      (p, some (ExM.vm 32 1 33 3 0 0)) }

example : (match accumulate ExM.g Ex.env ExM.saver ExM.start (ExM.args 5) with
    | .ok (some r) => some ((view ExM.g r.p.boxes).storage 5 [1])
    | _ => none) = some (some [9, 8, 7]) := by decide +kernel

/-! ## C24 -/

/-- **Only three calls touch privileges.** Any other host call leaves the privileges, the queues and the
staging set as they are. -/
theorem C24_other_calls {β : Type} (S : Store β) (h : Nat) (vm : VM) (q : Pair β) (h14 : h ≠ 14) (h15 : h ≠ 15) (h16 : h ≠ 16) :
    (accHost S env h vm q).2.x.p = { q.x.p with boxes := (accHost S env h vm q).2.x.p.boxes } := by
  rcases accHost_cases S env h vm q with e | ⟨_, e⟩ | ⟨f, e1, e2⟩
  · rw [e]
  · rw [e]
  · rw [e2]; exact only_fn e1 h14 h15 h16 vm q.x

/-- **Assign and designate.** A service that is not the assigner of the core, or not the designate, as
its context has them, changes nothing by asking. -/
theorem C24_not_holder {β : Type} (S : Store β) (vm : VM) (q : Pair β) :
    (∀ c, q.x.p.assign.current c ≠ some q.x.host) → (accHost S env 15 vm q).2 = q := by
  intro hc
  show ({ q with x := (hostAssign env vm q.x).2 } : Pair β) = q
  have : (hostAssign env vm q.x).2 = q.x := by
    unfold hostAssign
    dsimp only
    split
    · rfl
    split
    · rfl
    split
    · rfl
    split
    · rfl
    split
    · rfl
    next s hs =>
      rw [if_pos (fun e => hc _ (e ▸ hs))]
  rw [this]

theorem C24_not_designate {β : Type} (S : Store β) (vm : VM) (q : Pair β) (hd : q.x.p.designate.current ≠ q.x.host) :
    (accHost S env 16 vm q).2 = q := by
  show ({ q with x := (hostDesignate env vm q.x).2 } : Pair β) = q
  have : (hostDesignate env vm q.x).2 = q.x := by
    unfold hostDesignate
    split
    · rfl
    split
    · rfl
    split
    · rfl
    rw [if_pos (Ne.symm hd)]
  rw [this]

/-- Service 6 assigns no core and is not the designate: asking does nothing but set the result. -/
example : let q : Pair Boxes := { x := freshCtx 6 ExM.start 70000, y := freshCtx 6 ExM.start 70000 }
    (q.x.p.assign.current 0, q.x.p.assign.current 1, q.x.p.designate.current) = (some 1, some 5, 1) ∧
    (accHost (boxStore ExM.g) Ex.env 15 (ExM.vm 1 0 9 0 0 0) q).2.x.p.assign.bySelf = [] := by decide +kernel

/-- **What a round commits.** Whatever programs the services of a round run, including `bless` by
services that are not the manager, every change of a privilege, of an authorizer queue or of the
staging set that the round commits was asked for by a service entitled to it when the round began. -/
theorem C24_round_authority (hs : Settled u)
    (hrs : ∀ r ∈ rs, ∃ env mach a, accumulate g env mach u a = .ok (some r))
    (h : mergeRound g env metered u rs = some m) : Authorised u rs m.st.u := by
  unfold mergeRound at h
  cases hm : mergeResults g env (Base.of u) metered rs { st := { u := u } } with
  | none => rw [hm] at h; cases h
  | some m1 =>
    rw [hm] at h
    cases h
    refine pending_confirm (mergeResults_priv (P := Pending u rs) (fun v bs P => ⟨P.1, P.2, P.3, P.4, P.5, P.6, P.7, P.8, P.9⟩) ?_ rs _ m1
      (fun _ h => h) hm (pending_start hs))
    intro r hr v v' hv P
    obtain ⟨env', mach, a, ha⟩ := hrs r hr
    exact pending_step hr (accumulate_kept ha).2.assign hv P

example : Settled ExM.start ∧ (mergeRound ExM.g Ex.env (fun _ => true) ExM.start [ExM.result 1, ExM.result 5, ExM.result 6].reduceOption).isSome :=
  ⟨⟨⟨rfl, rfl⟩, ⟨rfl, rfl⟩, ⟨rfl, rfl⟩⟩, by decide +kernel⟩

/-- **Settled again.** After a round nothing is pending. -/
theorem C24_round_settled (h : mergeRound g env metered u rs = some m) : Settled m.st.u := by
  unfold mergeRound at h
  cases hm : mergeResults g env (Base.of u) metered rs { st := { u := u } } with
  | none => rw [hm] at h; cases h
  | some m1 =>
    rw [hm] at h
    cases h
    refine ⟨?_, ?_, ?_⟩
    · show m1.st.u.assign.confirm.byBless = none ∧ m1.st.u.assign.confirm.bySelf = []
      unfold Assigns.confirm; split <;> exact ⟨rfl, rfl⟩
    · show m1.st.u.designate.confirm.byBless = none ∧ m1.st.u.designate.confirm.bySelf = none
      unfold Role.confirm; split <;> (try split) <;> exact ⟨rfl, rfl⟩
    · show m1.st.u.registrar.confirm.byBless = none ∧ m1.st.u.registrar.confirm.bySelf = none
      unfold Role.confirm; split <;> (try split) <;> exact ⟨rfl, rfl⟩

private theorem role_exact (O : RoundOk g D u rs) (role : PState Boxes → Role)
    (h0 : (role u).byBless = none ∧ (role u).bySelf = none) (hc : ∀ r ∈ rs, (role r.p).confirmed = (role u).confirmed)
    (hb : ∀ v bs, role { v with boxes := bs } = role v) (hcf : ∀ v : PState Boxes, role v.confirm = (role v).confirm)
    (step : ∀ r ∈ rs, ∀ v v', mergePrivileges (Base.of u) r.host v r.p = some v' →
      role v' = (role v).merge (filterRole u.manager (role u).confirmed r.host (role r.p)))
    (h : mergeRound g env metered u rs = some m) :
    (role m.st.u).confirmed = resolve (role u).confirmed (managersChoice role (role u).confirmed u.manager rs)
      (holdersChoice role (role u).confirmed rs) := by
  unfold mergeRound at h
  cases hm : mergeResults g env (Base.of u) metered rs { st := { u := u } } with
  | none => rw [hm] at h; cases h
  | some m1 =>
    rw [hm] at h
    cases h
    have hf := mergeResults_fold O role (fun R r => R.merge (filterRole u.manager (role u).confirmed r.host (role r.p))) hb step rs _ m1
      (fun _ h => h) (up_start O) hm
    obtain ⟨f1, f2, f3⟩ := role_fold role u.manager (role u).confirmed rs (role u) O.hosts hc
    show (role m1.st.u.confirm).confirmed = _
    rw [hcf, Role.confirm_cases, hf]
    simp only
    rw [f1, f3, h0.1]
    unfold resolve managersChoice holdersChoice
    rw [h0.2] at f2
    generalize (resultOf rs u.manager).bind (fun r => (role r.p).byBless) = a at *
    generalize (resultOf rs (role u).confirmed).bind (fun r => (role r.p).bySelf) = b at *
    generalize List.foldl _ _ _ = F at *
    generalize (role u).confirmed = o at *
    cases a with
    | none =>
      rw [f2 rfl]
      cases b with
      | none => simp [news_none]
      | some t => by_cases c : t = o <;> simp [news_none, news_some, c]
    | some s =>
      by_cases c : s = o
      · rw [f2 (by rw [news_some, if_pos c])]
        cases b with
        | none => simp [news_none, news_some, c]
        | some t => by_cases d : t = o <;> simp [news_some, c, d]
      · simp [news_some, c]

/-- **The two single-service roles.** With the services of the round alive throughout, the new designate
and the new registrar are the Gray Paper's `R(o, a, b)`: the prior manager's choice if it is a
change, else the prior holder's. -/
theorem C24_roles_resolved (O : RoundOk g D u rs) (hs : Settled u)
    (hrs : ∀ r ∈ rs, ∃ env mach a, accumulate g env mach u a = .ok (some r))
    (h : mergeRound g env metered u rs = some m) :
    m.st.u.designate.confirmed = resolve u.designate.confirmed (managersChoice PState.designate u.designate.confirmed u.manager rs)
        (holdersChoice PState.designate u.designate.confirmed rs) ∧
    m.st.u.registrar.confirmed = resolve u.registrar.confirmed (managersChoice PState.registrar u.registrar.confirmed u.manager rs)
        (holdersChoice PState.registrar u.registrar.confirmed rs) := by
  have key : ∀ r ∈ rs, Kept u r.p := fun r hr => by
    obtain ⟨_, _, _, ha⟩ := hrs r hr; exact (accumulate_kept ha).2
  have step : ∀ (r : AccResult) (v v' : PState Boxes), mergePrivileges (Base.of u) r.host v r.p = some v' →
      v'.designate = v.designate.merge (filterRole u.manager u.designate.confirmed r.host r.p.designate) ∧
      v'.registrar = v.registrar.merge (filterRole u.manager u.registrar.confirmed r.host r.p.registrar) := by
    intro r v v' h
    unfold mergePrivileges at h
    simp only at h
    cases ha : v.assign.merge (filterAssigns (Base.of u) r.host r.p.assign) with
    | none => rw [ha] at h; cases h
    | some as => rw [ha] at h; cases h; exact ⟨rfl, rfl⟩
  exact ⟨role_exact O PState.designate hs.designate (fun r hr => (key r hr).designate) (fun _ _ => rfl) (fun _ => rfl)
      (fun r _ v v' h => (step r v v' h).1) h,
    role_exact O PState.registrar hs.registrar (fun r hr => (key r hr).registrar) (fun _ _ => rfl) (fun _ => rfl)
      (fun r _ v v' h => (step r v v' h).2) h⟩

/-- The round of the manager 1, the assigner 5 and the impostor 6: 1 appoints, 6 does not. -/
def ExM.round : Option Merged :=
  mergeRound ExM.g Ex.env (fun _ => true) ExM.start [ExM.result 1, ExM.result 5, ExM.result 6].reduceOption

example : (ExM.round.map fun m => (m.st.u.manager, m.st.u.designate.confirmed, m.st.u.registrar.confirmed, m.gas.length)) = some (9, 6, 5, 3) := by
  decide +kernel

/-- **Where the code departs from `R` (assigners).** The manager blesses and leaves the assigners as they
are; in the same round the assigner of core 1 hands its core to service 9. `R(o, a, b)` gives 9, the
code keeps 5: once the manager blesses, the list it gives is taken for every core. -/
theorem C24_assigner_choice_lost_partial :
    (ExM.result 1).map (fun r => r.p.assign.byBless) = some (some [1, 5]) ∧
    (ExM.result 5).map (fun r => r.p.assign.bySelf) = some [(1, 9)] ∧
    (ExM.round.map fun m => m.st.u.assign.confirmed) = some [1, 5] ∧ resolve 5 5 9 = 9 := by
  decide +kernel

/-- **A privilege used before it is checked.** Service 6 holds no privilege. It blesses itself manager and
registrar in its own context and then creates the service 0, a reserved identifier, with free storage.
The round discards the bless but commits the account. -/
theorem C24_self_bless_creates_partial :
    (6 ≠ ExM.start.manager ∧ 6 ≠ ExM.start.registrar.confirmed) ∧ ExM.g.metas 0 = none ∧
    ((mergeRound ExM.g Ex.env (fun _ => true) ExM.start (ExM.result 6).toList).map fun m =>
      (m.st.u.manager, m.st.u.registrar.confirmed, ((view ExM.g m.st.u.boxes).metas 0).map fun a => (a.gratis, a.parent))) =
    some (1, 5, some (48, 6)) := by
  decide +kernel

/-- **Two such services stop the round.** Services 5 and 6 each do the same, and the round they run in, with
whatever else it holds, is not merged: the block that includes both cannot be executed. -/
theorem C24_two_self_bless_block_partial :
    (ExM.impostorResult 5).isSome ∧ (ExM.impostorResult 6).isSome ∧
    (mergeRound ExM.g Ex.env (fun _ => true) ExM.start ([ExM.result 1, ExM.impostorResult 5, ExM.impostorResult 6].reduceOption)).isNone := by
  decide +kernel

/-! ## C44 -/

/-- **Isolation.** In a round that is merged, the metadata (existence, balance, code) of every account
ends as its own service left it, if that ran; as the one service that created or ejected it left
it; and otherwise as it was. -/
theorem C44_merge_isolated (O : RoundOk g D u rs) (h : mergeRound g env metered u rs = some m) :
    (∀ r ∈ rs, (view g m.st.u.boxes).metas r.host = (Alone (view g u.boxes) r).metas r.host) ∧
    (∀ r ∈ rs, ∀ s, Flips (view g u.boxes) r s → (view g m.st.u.boxes).metas s = (Alone (view g u.boxes) r).metas s) ∧
    (∀ s, (∀ r ∈ rs, r.host ≠ s ∧ ¬ Flips (view g u.boxes) r s) → (view g m.st.u.boxes).metas s = (view g u.boxes).metas s) := by
  unfold mergeRound at h
  cases hm : mergeResults g env (Base.of u) metered rs { st := { u := u } } with
  | none => rw [hm] at h; cases h
  | some m1 =>
    rw [hm] at h
    cases h
    obtain ⟨h1, h2, h3, _⟩ := mergeResults_spec O rs _ m1 (fun _ h => h) O.hosts (up_start O) hm
    exact ⟨h1, fun r hr s hf => (h2 r hr s hf).2, h3⟩

example : RoundOk Ex.g (fun s => s = 7 ∨ s = 8) ExM.base [ExM.r7, ExM.r8] ∧ Flips (view Ex.g ExM.base.boxes) ExM.r7 9 ∧
    ((mergeRound Ex.g Ex.env (fun _ => true) ExM.base [ExM.r7, ExM.r8]).map fun m =>
      ([7, 8, 9].map fun s => ((view Ex.g m.st.u.boxes).metas s).map Meta.balance)) = some [some 9000, some 290, some 10000] :=
  ⟨ExM.roundOk, (by unfold Flips; decide), by decide +kernel⟩

theorem mergeResults_reports {b : Base} : ∀ (rs : List AccResult) {m m' : Merged}, mergeResults g env b metered rs m = some m' →
    m'.gas = m.gas ++ (rs.filter fun r => metered r.host).map (fun r => (r.host, r.gas)) ∧
    m'.hashes = m.hashes ++ (rs.filter fun r => metered r.host).flatMap (fun r => (r.hash.map fun h => (r.host, h)).toList) ∧
    m'.transfers = m.transfers ++ (rs.filter fun r => metered r.host).flatMap AccResult.transfers := by
  intro rs
  induction rs with
  | nil => intro m m' h; cases h; simp
  | cons r rs ih =>
    intro m m' h
    unfold mergeResults at h
    cases hr : mergeResult g env b metered m r with
    | none => rw [hr] at h; cases h
    | some m1 =>
      rw [hr] at h
      obtain ⟨i1, i2, i3⟩ := ih h
      unfold mergeResult at hr
      cases ho : mergeOne g b m.st r with
      | none => rw [ho] at hr; cases hr
      | some st =>
        rw [ho] at hr
        simp only at hr
        by_cases c : metered r.host
        · rw [if_pos c] at hr
          cases hp : provideAll g env r.provided st.u.boxes with
          | none => rw [hp] at hr; cases hr
          | some bs =>
            rw [hp] at hr
            cases hr
            rw [i1, i2, i3]
            simp [List.filter_cons, c]
        · rw [if_neg c] at hr
          cases hr
          rw [i1, i2, i3]
          simp [List.filter_cons, c]

/-- **Outputs.** What a merged round reports — gas used, output hashes and transfers for the next round —
is what the results of the services that count say, in their order. -/
theorem C44_round_reports (h : mergeRound g env metered u rs = some m) :
    m.gas = (rs.filter fun r => metered r.host).map (fun r => (r.host, r.gas)) ∧
    m.hashes = (rs.filter fun r => metered r.host).flatMap (fun r => (r.hash.map fun h => (r.host, h)).toList) ∧
    m.transfers = (rs.filter fun r => metered r.host).flatMap AccResult.transfers := by
  unfold mergeRound at h
  cases hm : mergeResults g env (Base.of u) metered rs { st := { u := u } } with
  | none => rw [hm] at h; cases h
  | some m1 =>
    rw [hm] at h
    cases h
    simpa using mergeResults_reports rs hm

example : ((mergeRound Ex.g Ex.env (fun s => s == 7) ExM.base [{ ExM.r7 with hash := some [1], gas := 4 }, { ExM.r8 with gas := 5 }]).map fun m => (m.gas, m.hashes)) =
    some ([(7, 4)], [(7, [1])]) := by decide +kernel

/-- **Conflicts.** A round in which two services create or eject the same account is never merged. -/
theorem C44_conflict_rejected (O : RoundOk g D u rs) {r r' : AccResult} {s : Nat} (hr : r ∈ rs) (hr' : r' ∈ rs)
    (hne : r.host ≠ r'.host) (h1 : Flips (view g u.boxes) r s) (h2 : Flips (view g u.boxes) r' s) :
    mergeRound g env metered u rs = none := by
  unfold mergeRound
  cases hm : mergeResults g env (Base.of u) metered rs { st := { u := u } } with
  | none => rfl
  | some m1 =>
    obtain ⟨_, _, _, h4⟩ := mergeResults_spec O rs _ m1 (fun _ h => h) O.hosts (up_start O) hm
    obtain ⟨i, hi, ei⟩ := List.mem_iff_getElem.1 hr
    obtain ⟨j, hj, ej⟩ := List.mem_iff_getElem.1 hr'
    have hp := List.pairwise_iff_getElem.1 h4
    rcases Nat.lt_trichotomy i j with c | c | c
    · exact absurd (ej ▸ h2) (hp i j hi hj c s (ei ▸ h1))
    · subst c; exact absurd (congrArg AccResult.host (ei.symm.trans ej)) hne
    · exact absurd (ei ▸ h1) (hp j i hj hi c s (ej ▸ h2))

example : RoundOk Ex.g (fun s => s = 7 ∨ s = 8) ExM.base [ExM.r7, ExM.r8'] ∧ Flips (view Ex.g ExM.base.boxes) ExM.r7 9 ∧
    Flips (view Ex.g ExM.base.boxes) ExM.r8' 9 := ⟨ExM.roundOk', (by unfold Flips; decide), (by unfold Flips; decide)⟩

/-! ## C20 over a round -/

/-- **Tokens of a round.** Suppose each service, run alone on the state of the round, leaves in balances and
transfers what there was plus what it received, and changes only its own account and those it creates
or ejects. Then so does the round: what the accounts hold and the new transfers carry is what they
held before plus all that was received. Missing: that each result conserves tokens is C20 for its
calls, and fails where C21 does. -/
theorem C20_round_conserved_partial (O : RoundOk g D u rs)
    (N : ∀ r ∈ rs, ∀ s, s ≠ r.host → ¬ Flips (view g u.boxes) r s → (Alone (view g u.boxes) r).metas s = (view g u.boxes).metas s)
    (hu : ∀ r ∈ rs, metered r.host = false → r.transfers = []) (h : mergeRound g env metered u rs = some m)
    (n0 : Nat) (h0 : Held (view g u.boxes) n0) (got : AccResult → Nat)
    (hr : ∀ r ∈ rs, ∃ n, Held (Alone (view g u.boxes) r) n ∧ n + inFlight r.transfers = n0 + got r) :
    ∃ n, Held (view g m.st.u.boxes) n ∧ n + inFlight m.transfers = n0 + (rs.map got).sum :=
  round_tokens O (fun r hr s hm => N r hr s (fun c => hm (.inl c.symm)) (fun c => hm (.inr c))) hu h h0 hr

/-- Service 7 gives away 1000 and the new account 9 has 10000 (9000 of them received); service 8 sends
10 away: 10300 tokens become 10300 + 9000, 10 of them in flight. -/
def ExM.sent : List AccResult := [ExM.r7, { ExM.r8 with transfers := [{ src := 8, dst := 7, amount := 10, memo := [], gas := 0 }] }]
example : ((mergeRound Ex.g Ex.env (fun _ => true) ExM.base ExM.sent).map fun m =>
      (([7, 8, 9].map fun s => (((view Ex.g m.st.u.boxes).metas s).map Meta.balance).getD 0).sum, inFlight m.transfers)) = some (19290, 10) ∧
    (ExM.sent.map fun r => ([7, 8, 9].map fun s => (((Alone (view Ex.g ExM.base.boxes) r).metas s).map Meta.balance).getD 0).sum + inFlight r.transfers) =
      [10300 + 9000, 10300] := by decide +kernel

end Fastroll.Svc
