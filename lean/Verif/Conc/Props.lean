import Verif.Codec.Model
import Verif.Conc.Lemmas4

/-
C64: the state transition functions that the executor runs concurrently give the same result
under every schedule, as long as the components that one writes while another reads their prior
value are in the cache; otherwise a write can be lost.
-/
namespace Fastroll.Conc

open Fastroll.StateCache (Mut Status upd addKey)
open Fastroll.Conc.Paper (alone Foot Within Apart preFoot midFoot endFoot sameHistory)

section
variable {I K V R : Type} [DecidableEq I] [DecidableEq K]

/-- What a group has to come to: every task returns what it returns alone, every key is left as
its writer alone leaves it, and the other keys are unchanged. -/
def Agrees (S : Setup I K V R) (y : Sys I K V R) : Prop :=
  (∀ i, (y.pc i).result = some (alone S.s0.prior (S.t i) S.s0.cur).1) ∧
  (∀ i k, (S.F i).write k = true → y.sh.cur k = (alone S.s0.prior (S.t i) S.s0.cur).2 k) ∧
  (∀ k, (∀ i, (S.F i).write k = false) → y.sh.cur k = S.s0.cur k)

/-- **C64.**  Tasks that keep to their keys and do not get in each other's way come to what they
come to alone, whatever the schedule. -/
theorem C64_any_schedule (S : Setup I K V R) (H : S.Fit) (sched : List I)
    (hj : ((Sys.spawn S.s0 S.t).run sched).joined) :
    Agrees S ((Sys.spawn S.s0 S.t).run sched) := by
  have hi := H.run sched
  generalize (Sys.spawn S.s0 S.t).run sched = y at hj hi ⊢
  have key : ∀ i, ∃ r, y.pc i = .ready (.done r) ∧
      alone S.s0.prior (S.t i) S.s0.cur = (r, S.own i y.sh) := by
    intro i
    obtain ⟨_, _, _, ho⟩ := hi.thread i
    have hs := hj i
    cases hp : y.pc i with
    | ready t =>
      rw [hp] at hs ho
      cases t with
      | done r => exact ⟨r, rfl, ho.symm⟩
      | getClean _ _ => cases hs
      | get _ _ => cases hs
      | withMut _ _ _ _ => cases hs
      | add _ _ _ => cases hs
    | fetch _ _ => rw [hp] at hs; cases hs
    | insert _ _ _ => rw [hp] at hs; cases hs
    | lock _ _ _ _ => rw [hp] at hs; cases hs
    | mark _ _ _ => rw [hp] at hs; cases hs
    | put _ _ _ => rw [hp] at hs; cases hs
  refine ⟨fun i => ?_, fun i k hw => ?_, hi.unwritten⟩
  · obtain ⟨r, hp, ho⟩ := key i
    rw [hp, ho]; rfl
  · obtain ⟨r, hp, ho⟩ := key i
    rw [ho]
    exact (own_write hw).symm

/-- **C64.**  If the scheduler leaves no task out for ever, all tasks finish. -/
theorem C64_terminates (s : Sh K V) (t : I → Task K V R) (all : List I) (hall : ∀ i, i ∈ all)
    (σ : Nat → I) (hf : ∀ i n, ∃ m, n ≤ m ∧ σ m = i) :
    ∃ n, ((Sys.spawn s t).run ((List.range n).map σ)).joined := by
  obtain ⟨n, hn⟩ := after_all hf s t all
  exact ⟨n, fun i => by rw [← after_run]; exact hn i (hall i)⟩

end

/-! ### The groups of the executor -/

/-- The first phase as a group. -/
def preSetup {H X : Type} (p : PreIn H X) (s : Sh Key (Val H X)) :
    Setup PreTask Key (Val H X) (Out (Val H X)) :=
  ⟨s, preTasks p, preFoot p.progressed p.disputes.empty, fun _ v v' => v = v'⟩

theorem preSetup_fit {H X : Type} (p : PreIn H X) (s : Sh Key (Val H X)) (hok : s.Ok)
    (hw : p.progressed = true → s.Warm .active ∧ (p.disputes.empty = false → s.Warm .past)) :
    (preSetup p s).Fit := by
  refine ⟨hok, fun i => ?_, pre_apart _ _, ?_, fun _ _ => rfl, fun _ _ _ _ => Eq.trans⟩
  · refine pre_within p _ _ (fun k => ?_) i
    rintro ⟨j, _, hj⟩
    cases j <;> cases hj
  · intro i j k hij h1 h2
    have h2 : (preFoot p.progressed p.disputes.empty j).clean k = true := by
      rcases h2 with h2 | h2
      · exact h2
      · cases j <;> cases h2
    have h1 : (preFoot p.progressed p.disputes.empty i).write k = true := h1
    cases i <;> cases j <;> first
      | exact absurd rfl hij
      | (simp [preFoot] at h1 h2; done)
      | (simp [preFoot] at h1 h2; subst h1; simp at h2; done)
      | (simp [preFoot] at h1 h2; obtain ⟨hp, h1⟩ := h1; subst h1; simp at h2; done)
      | (simp [preFoot] at h1 h2; obtain ⟨hp, h1⟩ := h1; subst h1; exact (hw hp).1)
      | (simp [preFoot] at h1 h2; obtain ⟨hp, h1⟩ := h1; subst h1; exact (hw hp).2 h2.1)

/-- **C64, first phase.**  Disputes, entropy, past set, active set and history can be run
concurrently.  Missing: the active set (and, with disputes in the block, the past set) has to be
in the cache when the block starts an epoch, and nothing may be evicted. -/
theorem C64_first_phase_partial {H X : Type} (p : PreIn H X) (s : Sh Key (Val H X)) (hok : s.Ok)
    (hw : p.progressed = true → s.Warm .active ∧ (p.disputes.empty = false → s.Warm .past))
    (sched : List PreTask) (hj : ((Sys.spawn s (preTasks p)).run sched).joined) :
    Agrees (preSetup p s) ((Sys.spawn s (preTasks p)).run sched) :=
  C64_any_schedule (preSetup p s) (preSetup_fit p s hok hw) sched hj

/-- **C64, first phase.**  On the first block of an epoch the posterior active set is the prior
pending set and the posterior past set the prior active set, whatever the schedule. -/
theorem C64_epoch_sets_partial {H X : Type} (p : PreIn H X) (s : Sh Key (Val H X)) (hok : s.Ok)
    (hp : p.progressed = true) (hw : s.Warm .active ∧ (p.disputes.empty = false → s.Warm .past))
    {g a q a' : Val H X} (hg : s.prior .safrole = some g) (ha : s.prior .active = some a)
    (ha' : s.cur .active = some a') (hq : s.cur .past = some q)
    (sched : List PreTask) (hj : ((Sys.spawn s (preTasks p)).run sched).joined) :
    ((Sys.spawn s (preTasks p)).run sched).sh.cur .active = some (p.ofSafrole g) ∧
    ((Sys.spawn s (preTasks p)).run sched).sh.cur .past = some (p.ofActive a) := by
  obtain ⟨_, h, _⟩ := C64_first_phase_partial p s hok (fun _ => hw) sched hj
  constructor
  · rw [h .active .active (by simp [preSetup, preFoot, hp])]
    simp [preSetup, preTasks, activeTask, hp, getCleanS, mutS, alone, hg, ha', Paper.put,
      Paper.kept]
  · rw [h .past .past (by simp [preSetup, preFoot, hp])]
    simp [preSetup, preTasks, pastTask, hp, getCleanS, mutS, alone, ha, hq, Paper.put, Paper.kept]

/-- **C64, first phase.**  The posterior entropy after the first phase: rotated on the first block of
an epoch, else unchanged (the accumulator follows in the middle phase). -/
theorem C64_entropy_rotation_partial {H X : Type} (p : PreIn H X) (s : Sh Key (Val H X))
    (hok : s.Ok)
    (hw : p.progressed = true → s.Warm .active ∧ (p.disputes.empty = false → s.Warm .past))
    {a b c d : H} (he : s.cur .entropy = some (.entropy a b c d))
    (sched : List PreTask) (hj : ((Sys.spawn s (preTasks p)).run sched).joined) :
    (((Sys.spawn s (preTasks p)).run sched).pc .entropy).result = some (.ok []) ∧
    ((Sys.spawn s (preTasks p)).run sched).sh.cur .entropy =
      some (if p.progressed then .entropy a a b c else .entropy a b c d) := by
  obtain ⟨h1, h, _⟩ := C64_first_phase_partial p s hok hw sched hj
  constructor
  · rw [h1 .entropy]
    simp [preSetup, preTasks, entropyTask, rotate, mutS, alone, he, Paper.put, Paper.kept]
  · rw [h .entropy .entropy (by simp [preSetup, preFoot])]
    simp [preSetup, preTasks, entropyTask, rotate, mutS, alone, he, Paper.put, Paper.kept]

/-- **C64.**  The first phase leaves what the middle phase needs: if its entropy task succeeded,
the entropy is in the cache. -/
theorem C64_entropy_ready {H X : Type} (p : PreIn H X) (s : Sh Key (Val H X)) (hok : s.Ok)
    (hw : p.progressed = true → s.Warm .active ∧ (p.disputes.empty = false → s.Warm .past))
    (sched : List PreTask) {o : List (Val H X)}
    (he : (((Sys.spawn s (preTasks p)).run sched).pc .entropy).result = some (.ok o)) :
    ((Sys.spawn s (preTasks p)).run sched).sh.Warm .entropy ∧
    ((Sys.spawn s (preTasks p)).run sched).sh.Ok := by
  have HF := preSetup_fit p s hok hw
  have hi := HF.run sched
  refine ⟨?_, hi.ok⟩
  suffices h : ∀ (l : List PreTask) (y : Sys PreTask Key (Val H X) (Out (Val H X))),
      (preSetup p s).Inv y → EntropyAt p.progressed y.sh (y.pc .entropy) →
      EntropyAt p.progressed (y.run l).sh ((y.run l).pc .entropy) by
    have := h sched _ HF.start (.start _ rfl)
    have he' : (((Sys.spawn (preSetup p s).s0 (preSetup p s).t).run sched).pc .entropy).result =
      some (.ok o) := he
    show ((Sys.spawn (preSetup p s).s0 (preSetup p s).t).run sched).sh.Warm .entropy
    generalize (Sys.spawn (preSetup p s).s0 (preSetup p s).t).run sched = y at this he'
    cases hpc : y.pc .entropy with
    | ready t =>
      rw [hpc] at this he'
      cases t with
      | done r =>
        cases this with
        | failed e => exact absurd he' (by simp [Pc.result])
        | ok hwm => exact hwm
      | getClean _ _ => cases he'
      | get _ _ => cases he'
      | withMut _ _ _ _ => cases he'
      | add _ _ _ => cases he'
    | fetch _ _ => rw [hpc] at he'; cases he'
    | insert _ _ _ => rw [hpc] at he'; cases he'
    | lock _ _ _ _ => rw [hpc] at he'; cases he'
    | mark _ _ _ => rw [hpc] at he'; cases he'
    | put _ _ _ => rw [hpc] at he'; cases he'
  intro l
  induction l with
  | nil => intro y _ h; exact h
  | cons i l ih =>
    intro y hy h
    refine ih _ (hy.step HF i) ?_
    by_cases hie : i = .entropy
    · subst hie
      rw [pc_step_self]
      refine entropyAt_step h ?_
      intro e n hp
      obtain ⟨_, _, hg, _⟩ := hy.thread .entropy
      rw [hp] at hg
      exact hg.2.2.1
    · rw [pc_step_other (fun e => hie e.symm)]
      exact entropyAt_other h (hy.warm_step i)

/-- The middle phase as a group. -/
def midSetup {H X A C : Type} (p : MidIn H X A C) (s : Sh Key (Val H X)) :
    Setup MidTask Key (Val H X) (Out (Val H X)) :=
  ⟨s, midTasks p, midFoot, sameHistory⟩

/-- **C64, middle phase.**  The entropy can be accumulated while the reports are processed: the
guarantor assignments do not depend on the hash that changes. -/
theorem C64_middle_phase {H X A C : Type} (p : MidIn H X A C) (s : Sh Key (Val H X)) (hok : s.Ok)
    (hw : s.Warm .entropy) (sched : List MidTask)
    (hj : ((Sys.spawn s (midTasks p)).run sched).joined) :
    Agrees (midSetup p s) ((Sys.spawn s (midTasks p)).run sched) := by
  refine C64_any_schedule (midSetup p s) ⟨hok, fun i => ?_, mid_apart, ?_, fun _ _ => Or.inl rfl, ?_⟩
    sched hj
  · refine mid_within p (fun i => (midSetup p s).keep i) (fun k => ?_) i
    rintro ⟨j, hj, hv⟩
    cases j with
    | reports => exact hj rfl
    | entropy => cases hv
  · intro i j k hij h1 h2
    have h1 : (midFoot i).write k = true := h1
    have h2 : (midFoot j).clean k = true ∨ (midFoot j).view k = true := h2
    cases i <;> cases j
    · exact absurd rfl hij
    · simp [midFoot] at h2
    · simp [midFoot] at h1; subst h1; exact hw
    · exact absurd rfl hij
  · intro k u v w h1 h2
    rcases h1 with h1 | ⟨hk, a, b, e1, e2, e3, h1, h1'⟩
    · subst h1; exact h2
    · rcases h2 with h2 | ⟨_, a', b', e1', e2', e3', h2, h2'⟩
      · subst h2; exact Or.inr ⟨hk, a, b, e1, e2, e3, h1, h1'⟩
      · rw [h1'] at h2
        injection h2 with _ h3 h4 h5
        subst h3; subst h4; subst h5
        exact Or.inr ⟨hk, a, b', e1, e2, e3, h1, h2'⟩

/-- The last phase as a group. -/
def endSetup {V : Type} (p : EndIn V) (s : Sh Key V) : Setup EndTask Key V (Out V) :=
  ⟨s, endTasks p, endFoot, fun _ v v' => v = v'⟩

/-- **C64, last phase.**  Authorizer pools, time of last accumulation, statistics and preimages can
be processed concurrently, whatever is in the cache. -/
theorem C64_last_phase {V : Type} (p : EndIn V) (s : Sh Key V) (hok : s.Ok)
    (sched : List EndTask) (hj : ((Sys.spawn s (endTasks p)).run sched).joined) :
    Agrees (endSetup p s) ((Sys.spawn s (endTasks p)).run sched) := by
  refine C64_any_schedule (endSetup p s) ⟨hok, fun i => ?_, end_apart, ?_, fun _ _ => rfl,
    fun _ _ _ _ => Eq.trans⟩ sched hj
  · refine end_within p _ _ (fun k => ?_) i
    rintro ⟨j, _, hj⟩
    cases j <;> cases hj
  · intro i j k hij h1 h2
    have h1 : (endFoot i).write k = true := h1
    have h2 : (endFoot j).clean k = true ∨ (endFoot j).view k = true := h2
    cases i <;> cases j <;> cases k <;> first
      | exact absurd rfl hij
      | (simp [endFoot] at h1; done)
      | (simp [endFoot] at h2; done)

/-! ### What goes wrong otherwise -/

/-- A block that starts an epoch and has no disputes. -/
def exPre : PreIn Nat Nat :=
  ⟨true, ⟨true, true, fun _ _ _ => true, true, fun _ _ _ => true, id, fun _ _ => some (.other 9)⟩,
    id, id, fun _ => false, id⟩

/-- A stored state: the active set is 1, the past set 2, the pending set 3. -/
def exDb : Key → Option (Val Nat Nat)
  | .entropy => some (.entropy 11 12 13 14)
  | .disputes => some (.other 10)
  | .active => some (.other 1)
  | .past => some (.other 2)
  | .safrole => some (.other 3)
  | .history => some (.other 5)
  | .staging => some (.other 6)
  | .pending => some (.other 7)
  | .timeslot => some (.other 8)
  | _ => none

/-- Nothing is cached, as after a restart. -/
def exCold : Sh Key (Val Nat Nat) := ⟨exDb, fun _ => none, []⟩

/-- Everything is cached as raw entries, as after the fuzzing target has been given a state. -/
def exRaw : Sh Key (Val Nat Nat) :=
  ⟨exDb, fun k => (exDb k).map fun v => ⟨true, v, v, .clean⟩, []⟩

/-- Everything is cached. -/
def exWarm : Sh Key (Val Nat Nat) := ⟨exDb, fun k => (exDb k).map fresh, []⟩

/-- The past set task looks for the active set, the active set task does all its work, and then the
past set task gets its answer from the database; the other tasks follow. -/
def exLose : List PreTask :=
  [.past] ++ List.replicate 20 .active ++ List.replicate 20 .past ++ List.replicate 30 .disputes ++
    List.replicate 20 .entropy ++ List.replicate 20 .history

/-- The outcome of that schedule. -/
def exLost (s : Sh Key (Val Nat Nat)) : Sys PreTask Key (Val Nat Nat) (Out (Val Nat Nat)) :=
  (Sys.spawn s (preTasks exPre)).run exLose

/-- **C64, negative.**  From an empty cache the write of the active set can be lost: all five tasks
succeed, but the validators stay those of the old epoch, while the active set task alone makes the
pending set active.  The key counts as dirty, but the entry is clean and will not be committed. -/
theorem C64_cold_cache_loses :
    (exLost exCold).joined ∧ (∀ i, ∃ o, ((exLost exCold).pc i).result = some (.ok o)) ∧
    exCold.Ok ∧ (exLost exCold).sh.cur .active = exCold.cur .active ∧
    (exLost exCold).sh.cur .active = some (.other 1) ∧
    (exLost exCold).sh.cur .past = some (.other 1) ∧
    (alone exCold.prior (preTasks exPre .active) exCold.cur).2 .active = some (.other 3) ∧
    .active ∈ (exLost exCold).sh.dirty ∧
    (exLost exCold).sh.cache .active = some (fresh (.other 1)) := by
  refine ⟨?_, ?_, ?_, ?_, ?_, ?_, ?_, ?_, ?_⟩
  · intro i; cases i <;> decide +kernel
  · intro i
    cases i
    · exact ⟨[.other 9], by decide +kernel⟩
    · exact ⟨[], by decide +kernel⟩
    · exact ⟨[], by decide +kernel⟩
    · exact ⟨[], by decide +kernel⟩
    · exact ⟨[], by decide +kernel⟩
  · intro k e h; cases h
  all_goals decide +kernel

/-- **C64, negative.**  The same happens with the raw entries that the fuzzing target leaves. -/
theorem C64_raw_cache_loses :
    (exLost exRaw).joined ∧ (∀ i, ∃ o, ((exLost exRaw).pc i).result = some (.ok o)) ∧
    exRaw.Ok ∧ (exLost exRaw).sh.cur .active = some (.other 1) ∧
    (alone exRaw.prior (preTasks exPre .active) exRaw.cur).2 .active = some (.other 3) := by
  refine ⟨?_, ?_, ?_, ?_, ?_⟩
  · intro i; cases i <;> decide +kernel
  · intro i
    cases i
    · exact ⟨[.other 9], by decide +kernel⟩
    · exact ⟨[], by decide +kernel⟩
    · exact ⟨[], by decide +kernel⟩
    · exact ⟨[], by decide +kernel⟩
    · exact ⟨[], by decide +kernel⟩
  · intro k e h _
    simp only [exRaw, Option.map_eq_some_iff] at h
    obtain ⟨v, hv, he⟩ := h
    subst he
    exact ⟨rfl, hv⟩
  all_goals decide +kernel

/-- The entropy task, with the entropy evicted after it has been looked up. -/
def exEvicted : Sys PreTask Key (Val Nat Nat) (Out (Val Nat Nat)) :=
  let y := (Sys.spawn exWarm (preTasks exPre)).run [.entropy]
  (⟨evict y.sh .entropy, y.pc⟩ : Sys PreTask Key (Val Nat Nat) (Out (Val Nat Nat))).run
    [.entropy, .entropy, .entropy]

/-- **C64, negative.**  Nothing pins an entry between the look-up and the change: if it is evicted
there, the task fails and with it a valid block. -/
theorem C64_eviction_fails :
    (exEvicted.pc .entropy).result = some (.error (.state .entryNotFound)) ∧
    (alone exWarm.prior (preTasks exPre .entropy) exWarm.cur).1 = .ok [] := by
  exact ⟨by decide +kernel, by decide +kernel⟩

/-! ### Examples -/

theorem exWarm_ok : exWarm.Ok := by
  intro k e h hr
  simp only [exWarm, Option.map_eq_some_iff] at h
  obtain ⟨v, _, he⟩ := h
  subst he
  exact absurd hr (by simp [fresh])

theorem exWarm_warm {k : Key} {v : Val Nat Nat} (h : exDb k = some v) : exWarm.Warm k :=
  ⟨fresh v, by simp [exWarm, h], rfl⟩

/-- The bad schedule does no harm if the sets are cached: `C64_epoch_sets_partial` applies. -/
example : (exLost exWarm).sh.cur .active = some (.other 3) ∧
    (exLost exWarm).sh.cur .past = some (.other 1) :=
  C64_epoch_sets_partial exPre exWarm exWarm_ok rfl
    ⟨exWarm_warm (v := .other 1) rfl, fun _ => exWarm_warm (v := .other 2) rfl⟩
    (g := .other 3) (a := .other 1) (a' := .other 1) (q := .other 2) rfl rfl rfl rfl exLose
    (fun i => by cases i <;> decide +kernel)

/-- `C64_first_phase_partial`, `C64_any_schedule`. -/
example : Agrees (preSetup exPre exWarm) (exLost exWarm) :=
  C64_first_phase_partial exPre exWarm exWarm_ok
    (fun _ => ⟨exWarm_warm (v := .other 1) rfl, fun _ => exWarm_warm (v := .other 2) rfl⟩) exLose
    (fun i => by cases i <;> decide +kernel)

/-- `C64_entropy_rotation_partial`. -/
example : (exLost exWarm).sh.cur .entropy = some (.entropy 11 11 12 13) :=
  (C64_entropy_rotation_partial exPre exWarm exWarm_ok
    (fun _ => ⟨exWarm_warm (v := .other 1) rfl, fun _ => exWarm_warm (v := .other 2) rfl⟩)
    (a := 11) (b := 12) (c := 13) (d := 14) rfl exLose (fun i => by cases i <;> decide +kernel)).2

/-- `C64_entropy_ready`. -/
example : (exLost exWarm).sh.Warm .entropy :=
  (C64_entropy_ready exPre exWarm exWarm_ok
    (fun _ => ⟨exWarm_warm (v := .other 1) rfl, fun _ => exWarm_warm (v := .other 2) rfl⟩) exLose
    (o := []) (by decide +kernel)).1

/-- `C64_terminates`: two tasks in turn. -/
example (p : MidIn Nat Nat Nat Nat) : ∃ n, ((Sys.spawn exCold (midTasks p)).run
    ((List.range n).map fun n => if n % 2 = 0 then .reports else .entropy)).joined :=
  C64_terminates exCold (midTasks p) [.reports, .entropy] (fun i => by cases i <;> simp) _
    (fun i n => by
      cases i
      · exact ⟨2 * n, by omega, by simp⟩
      · exact ⟨2 * n + 1, by omega, by simp⟩)

/-- One guarantee with one credential, checked against the third hash of the entropy. -/
def exMid : MidIn Nat Nat Nat Nat :=
  { disputes := exPre.disputes, eliminate := some
    assurances := ⟨true, [], fun _ => true, fun _ _ => true, fun _ _ => true, fun _ => some [], fun _ _ => some some⟩
    guarantees := ⟨false, true, [⟨true, [], fun _ _ => true, fun _ _ _ _ _ _ => true, fun _ _ => true, true, [0], fun _ => true⟩], fun _ => true, fun _ _ h _ _ => some (.other h), fun _ => .other 77⟩
    mix := fun h => some (h + 1) }

/-- The state before the middle phase. -/
def exMidSt : Sh Key (Val Nat Nat) :=
  ⟨exDb, fun k => match k with
    | .authPool | .accQueue | .accHistory => some (fresh (.other 0))
    | k => (exDb k).map fresh, []⟩

/-- `C64_middle_phase`: the entropy changes in the middle of the reports task; both succeed and the
guarantor's key is the same. -/
def exMidSched : List MidTask :=
  List.replicate 15 .reports ++ List.replicate 20 .entropy ++ List.replicate 80 .reports

example : Agrees (midSetup exMid exMidSt) ((Sys.spawn exMidSt (midTasks exMid)).run exMidSched) ∧
    (((Sys.spawn exMidSt (midTasks exMid)).run exMidSched).pc .reports).result =
      some (.ok [.other 13]) ∧
    ((Sys.spawn exMidSt (midTasks exMid)).run exMidSched).sh.cur .entropy =
      some (.entropy 12 12 13 14) := by
  refine ⟨C64_middle_phase exMid exMidSt ?_ ⟨fresh (.entropy 11 12 13 14), by decide +kernel, rfl⟩ exMidSched
    (fun i => by cases i <;> decide +kernel), by decide +kernel, by decide +kernel⟩
  intro k e h hr
  have : ∀ v : Val Nat Nat, (fresh v).raw = false := fun _ => rfl
  simp only [exMidSt] at h
  split at h <;> first
    | (cases h; cases hr)
    | (simp only [Option.map_eq_some_iff] at h; obtain ⟨v, _, he⟩ := h; subst he; cases hr)

/-- One preimage is integrated and one service has accumulated. -/
def exEnd : EndIn (Val Nat Nat) :=
  { progressed := false, shift := fun q _ => q, services := [4], setLast := fun t _ => t
    rollover := fun a _ => a, keysOk := fun _ => true, count := fun _ s => s, perBlock := fun _ => .other 30
    shapeOk := true, unset := fun v => v == .other 0, push := fun t _ => some t
    preimages := [⟨4, [1], 9, .other 99⟩] }

/-- A state for it, partly cached. -/
def exEndSt : Sh Key (Val Nat Nat) :=
  ⟨fun k => match k with
    | .metadata 4 => some (.other 40)
    | .lookups 4 [1] 9 => some (.other 0)
    | .authQueue => some (.other 20)
    | .authPool => some (.other 21)
    | .stats => some (.other 22)
    | k => exDb k, fun k => if k = .timeslot then some ⟨false, .other 8, .other 50, .dirty .update⟩ else none, [.timeslot]⟩

/-- The tasks in turn. -/
def exEndSched : List EndTask :=
  (List.range 60).flatMap fun _ => [.preimages, .stats, .lastAcc, .authPool]

/-- `C64_last_phase`. -/
example : Agrees (endSetup exEnd exEndSt) ((Sys.spawn exEndSt (endTasks exEnd)).run exEndSched) ∧
    ((Sys.spawn exEndSt (endTasks exEnd)).run exEndSched).sh.cur (.metadata 4) =
      some (.other 50) ∧
    ((Sys.spawn exEndSt (endTasks exEnd)).run exEndSched).sh.cur (.preimage 4 [1]) =
      some (.other 99) := by
  refine ⟨C64_last_phase exEnd exEndSt ?_ exEndSched
    (fun i => by cases i <;> decide +kernel), by decide +kernel, by decide +kernel⟩
  intro k e h hr
  simp only [exEndSt] at h
  split at h
  · cases h; cases hr
  · cases h

end Fastroll.Conc
