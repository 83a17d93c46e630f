import Verif.Judge.Lemmas
/-!
# Disputes (C27)

For every chain of blocks with their dispute extrinsics, validator sets, epochs and signature scheme.
-/
namespace Fastroll.Judge
variable {σ : Type}

/-! ## A small chain to instantiate the theorems -/
namespace Ex
/-- A toy scheme: the signature spells the key and the message. -/
def ver (key : Nat) (m : Msg) (s : Nat × Msg) : Bool := s.1 == key && decide (s.2 = m)
/-- Three validators in each set, epoch 4. -/
def env : Env (Nat × Msg) := { ver := ver, V := 3, active := [10, 11, 12], past := [20, 21, 22], epoch := 4 }
def vote (key voter r : Nat) (b : Bool) : Judgment (Nat × Msg) := ⟨b, voter, key, Spec.statement r b⟩
/-- Report 5 is found good, 7 bad (judged by the past set), 9 wonky. -/
def xt : Xt (Nat × Msg) :=
  { verdicts := [⟨5, 4, [vote 10 0 5 true, vote 11 1 5 true, vote 12 2 5 true]⟩, ⟨7, 3, [vote 20 0 7 false, vote 21 1 7 false, vote 22 2 7 false]⟩,
      ⟨9, 4, [vote 10 0 9 true, vote 11 1 9 false, vote 12 2 9 false]⟩],
    culprits := [⟨7, 20, 20, .guarantee 7⟩, ⟨7, 21, 21, .guarantee 7⟩], faults := [⟨5, false, 11, 11, .invalid 5⟩, ⟨7, true, 22, 22, .valid 7⟩] }
def start : Disputes := ⟨[1], [2], [], [99]⟩
def after : Disputes := ⟨[1, 5], [2, 7], [9], [11, 20, 21, 22, 99]⟩
/-- A second block judging report 3 good. -/
def xt2 : Xt (Nat × Msg) :=
  { verdicts := [⟨3, 4, [vote 10 0 3 true, vote 11 1 3 true, vote 12 2 3 true]⟩], culprits := [], faults := [⟨3, false, 12, 12, .invalid 3⟩] }
def chain : List (Env (Nat × Msg) × Xt (Nat × Msg)) := [(env, xt), (env, xt2)]
def final : Disputes := ⟨[1, 3, 5], [2, 7], [9], [11, 12, 20, 21, 22, 99]⟩

theorem step : transition env start xt = .ok after := by rfl
theorem run : history chain start = .ok final := by rfl
end Ex

/-! ## Which extrinsics are included -/

/-- **C27**: an extrinsic is accepted exactly when its verdicts, culprits and faults are each in order
without repetition; every verdict has one of the three tallies, is not too old, names a report not judged
before, is signed by distinct validators of the set of its epoch, and comes with the offenders it implies;
and every offender is an unpunished validator whose signature contradicts a verdict of this extrinsic. -/
theorem C27_accept_iff {E : Env σ} {d : Disputes} {xt : Xt σ} (he : ∀ v ∈ xt.verdicts, v.epoch + 1 < 2 ^ 32) :
    (∃ d', transition E d xt = .ok d') ↔ Spec.Proper E d xt := by
  rw [← validate_iff he]
  unfold transition
  cases validate E d xt with
  | error _ => exact ⟨(fun ⟨_, h⟩ => by cases h), fun h => by cases h⟩
  | ok u => cases u; exact ⟨fun _ => rfl, fun _ => ⟨_, rfl⟩⟩

example : Spec.Proper Ex.env Ex.start Ex.xt := (C27_accept_iff (by decide)).1 ⟨_, Ex.step⟩

/-! ## Verdicts are final -/

/-- **C27**: along any chain no report is recorded in two of the sets or twice in one, and no report is
judged twice, in one block or in two. -/
theorem C27_one_verdict {bs : List (Env σ × Xt σ)} {d d' : Disputes} (h : history bs d = .ok d') (hn : (Spec.recorded d).Nodup) :
    (Spec.recorded d').Nodup ∧ (Spec.judged bs).Nodup ∧ ∀ r ∈ Spec.judged bs, r ∉ Spec.recorded d := by
  have h1 := history_nodup h hn
  have h2 := (history_recorded h).nodup_iff.1 h1
  obtain ⟨_, h3, h4⟩ := List.nodup_append.1 h2
  exact ⟨h1, h3, fun r hr hd => h4 r hd r hr rfl⟩

example : (Spec.recorded Ex.final).Nodup ∧ Spec.judged Ex.chain = [5, 7, 9, 3] := ⟨(C27_one_verdict Ex.run (by decide)).1, by decide⟩

/-- **C27**: the three sets hold, besides what they held, exactly the reports pronounced good (more than
two thirds for), bad (none for) and wonky (a third for) in the chain. -/
theorem C27_sets {bs : List (Env σ × Xt σ)} {d d' : Disputes} (h : history bs d = .ok d') (r : Nat) :
    (r ∈ d'.good ↔ r ∈ d.good ∨ ∃ E v, Spec.Said bs E v ∧ v.report = r ∧ Spec.ayes v = 2 * E.V / 3 + 1) ∧
    (r ∈ d'.bad ↔ r ∈ d.bad ∨ ∃ E v, Spec.Said bs E v ∧ v.report = r ∧ Spec.ayes v = 0) ∧
    (r ∈ d'.wonky ↔ r ∈ d.wonky ∨ ∃ E v, Spec.Said bs E v ∧ v.report = r ∧ Spec.ayes v = E.V / 3 ∧ 3 ≤ E.V) := by
  refine ⟨?_, ?_, ?_⟩
  · rw [history_good h]; simp only [eval_good]
  · rw [history_bad h]; simp only [eval_bad]
  · rw [history_wonky h]; simp only [eval_wonky]

example : 5 ∈ Ex.final.good ∧ Spec.Said Ex.chain Ex.env ⟨3, 4, [Ex.vote 10 0 3 true, Ex.vote 11 1 3 true, Ex.vote 12 2 3 true]⟩ :=
  ⟨by decide, Ex.xt2, by simp [Ex.chain], by simp [Ex.xt2]⟩

/-- **C27**: a recorded verdict is never changed: it stays in its set and never enters another. -/
theorem C27_final {bs : List (Env σ × Xt σ)} {d d' : Disputes} (h : history bs d = .ok d') (hn : (Spec.recorded d).Nodup) (r : Nat) :
    (r ∈ d.good → r ∈ d'.good ∧ r ∉ d'.bad ∧ r ∉ d'.wonky) ∧ (r ∈ d.bad → r ∈ d'.bad ∧ r ∉ d'.good ∧ r ∉ d'.wonky) ∧
    (r ∈ d.wonky → r ∈ d'.wonky ∧ r ∉ d'.good ∧ r ∉ d'.bad) := by
  have h1 := history_nodup h hn
  unfold Spec.recorded at h1
  obtain ⟨h2, _, h3⟩ := List.nodup_append.1 h1
  obtain ⟨_, _, h4⟩ := List.nodup_append.1 h2
  refine ⟨fun hr => ?_, fun hr => ?_, fun hr => ?_⟩
  · have m := (history_good h r).2 (Or.inl hr)
    exact ⟨m, fun hb => h4 r m r hb rfl, fun hw => h3 r (List.mem_append_left _ m) r hw rfl⟩
  · have m := (history_bad h r).2 (Or.inl hr)
    exact ⟨m, fun hb => h4 r hb r m rfl, fun hw => h3 r (List.mem_append_right _ m) r hw rfl⟩
  · have m := (history_wonky h r).2 (Or.inl hr)
    exact ⟨m, fun hb => h3 r (List.mem_append_left _ hb) r m rfl, fun hw => h3 r (List.mem_append_right _ hw) r m rfl⟩

example : 2 ∈ Ex.final.bad := ((C27_final Ex.run (by decide) 2).2.1 (by decide)).1

/-- **C27**: the sets are kept in order. -/
theorem C27_sorted {bs : List (Env σ × Xt σ)} {d d' : Disputes} (h : history bs d = .ok d')
    (hs : Spec.Sorted d.good ∧ Spec.Sorted d.bad ∧ Spec.Sorted d.wonky ∧ Spec.Sorted d.punish) :
    Spec.Sorted d'.good ∧ Spec.Sorted d'.bad ∧ Spec.Sorted d'.wonky ∧ Spec.Sorted d'.punish := history_sorted h hs

example : Spec.Sorted Ex.final.punish := (C27_sorted Ex.run (by simp [Spec.Sorted, Ex.start])).2.2.2

/-! ## Offenders -/

/-- **C27**: the offenders are exactly those recorded before and those named by a culprit or fault; an
offender once recorded stays recorded. -/
theorem C27_offenders {bs : List (Env σ × Xt σ)} {d d' : Disputes} (h : history bs d = .ok d') (k : Nat) :
    k ∈ d'.punish ↔ k ∈ d.punish ∨ ∃ b ∈ bs, (∃ c ∈ b.2.culprits, c.key = k) ∨ ∃ f ∈ b.2.faults, f.key = k := by
  rw [(history_punish h).mem_iff, List.mem_append, List.mem_flatMap]
  refine or_congr Iff.rfl (exists_congr fun b => and_congr Iff.rfl ?_)
  unfold offenders
  rw [List.mem_append, List.mem_map, List.mem_map]

example : 99 ∈ Ex.final.punish := (C27_offenders Ex.run 99).2 (Or.inl (by decide))

/-- **C27**: an offender is recorded exactly once along the chain, when no extrinsic names the same key
both as culprit and as fault. -/
theorem C27_offender_once {bs : List (Env σ × Xt σ)} {d d' : Disputes} (h : history bs d = .ok d') (hn : d.punish.Nodup)
    (hx : ∀ b ∈ bs, ∀ c ∈ b.2.culprits, ∀ f ∈ b.2.faults, c.key ≠ f.key) : d'.punish.Nodup := history_punish_nodup h hn hx

example : Ex.final.punish.Nodup := C27_offender_once Ex.run (by decide) (by decide)

/-- Key 20 guaranteed report 7 and later voted for it. -/
def Ex.twice : Xt (Nat × Msg) :=
  { verdicts := [⟨7, 3, [Ex.vote 20 0 7 false, Ex.vote 21 1 7 false, Ex.vote 22 2 7 false]⟩],
    culprits := [⟨7, 20, 20, .guarantee 7⟩, ⟨7, 21, 21, .guarantee 7⟩], faults := [⟨7, true, 20, 20, .valid 7⟩] }

/-- **C27** is broken in one case: a key named both as culprit and as fault of one extrinsic is recorded
twice, so the punish set is not a set. It never becomes more than twice. -/
theorem C27_offender_twice_partial :
    (transition Ex.env Ex.start Ex.twice = .ok ⟨[1], [2, 7], [], [20, 20, 21, 99]⟩) ∧
    ∀ {σ : Type} {bs : List (Env σ × Xt σ)} {d d' : Disputes}, history bs d = .ok d' → d.punish.Nodup → ∀ k, d'.punish.count k ≤ 2 :=
  ⟨by rfl, fun h hn => history_punish_count h fun k => Nat.le_succ_of_le (List.nodup_iff_count.1 hn k)⟩

/-- **C27**: nobody is punished without evidence: a newly recorded offender was a validator of the active
or past set, was not recorded yet, and either guaranteed a report this block finds bad or voted against
the verdict of this block. -/
theorem C27_evidence {E : Env σ} {d d' : Disputes} {xt : Xt σ} (h : transition E d xt = .ok d') {k : Nat} (hk : k ∈ d'.punish) (hd : k ∉ d.punish) :
    (k ∈ E.active ∨ k ∈ E.past) ∧
    ((∃ r ∈ d'.bad, r ∉ Spec.recorded d ∧ Spec.Guaranteed E.ver k r) ∨
     (∃ r ∈ d'.good, r ∉ Spec.recorded d ∧ Spec.Voted E.ver k r false) ∨
     (∃ r ∈ d'.bad, r ∉ Spec.recorded d ∧ Spec.Voted E.ver k r true)) := by
  obtain ⟨hA, e⟩ := transition_ok h
  have hk' : k ∈ offenders xt := by
    rw [e] at hk
    rcases List.mem_append.1 (mem_sortNat.1 hk) with h | h
    · exact absurd h hd
    · exact h
  refine ⟨(offenders_fresh hA hk').1, ?_⟩
  unfold offenders at hk'
  rcases List.mem_append.1 hk' with hc | hf
  · obtain ⟨c, hc, ec⟩ := List.mem_map.1 hc
    have g := hA.culprits c hc
    obtain ⟨v, hv, er, eb⟩ := g.verdict
    refine Or.inl ⟨c.report, ?_, ?_, c.sig, by rw [← ec]; exact g.sig⟩
    · rw [e]; exact mem_sortNat.2 (List.mem_append_right _ (mem_split.2 ⟨v, hv, er, eb⟩))
    · rw [← er]; exact (hA.verdicts v hv).fresh
  · obtain ⟨f, hf, ef⟩ := List.mem_map.1 hf
    have g := hA.faults f hf
    obtain ⟨v, hv, er, eb⟩ := g.verdict
    have fr : f.report ∉ Spec.recorded d := by rw [← er]; exact (hA.verdicts v hv).fresh
    rcases eb with ⟨e1, e2⟩ | ⟨e1, e2⟩
    · refine Or.inr (Or.inl ⟨f.report, ?_, fr, f.sig, ?_⟩)
      · rw [e]; exact mem_sortNat.2 (List.mem_append_right _ (mem_split.2 ⟨v, hv, er, e1⟩))
      · have := g.sig; rw [e2, ef] at this; exact this
    · refine Or.inr (Or.inr ⟨f.report, ?_, fr, f.sig, ?_⟩)
      · rw [e]; exact mem_sortNat.2 (List.mem_append_right _ (mem_split.2 ⟨v, hv, er, e1⟩))
      · have := g.sig; rw [e2, ef] at this; exact this

example : 11 ∈ Ex.env.active ∨ 11 ∈ Ex.env.past := (C27_evidence Ex.step (k := 11) (by decide) (by decide)).1

/-- **C27**: verdicts have consequences. A report newly found good leaves a new offender who voted against
it; one newly found bad leaves two different new offenders who guaranteed it. -/
theorem C27_consequences {E : Env σ} {d d' : Disputes} {xt : Xt σ} (h : transition E d xt = .ok d') {v : Verdict σ} (hv : v ∈ xt.verdicts) :
    (Spec.ayes v = 2 * E.V / 3 + 1 → ∃ k ∈ d'.punish, k ∉ d.punish ∧ Spec.Voted E.ver k v.report false) ∧
    (Spec.ayes v = 0 → ∃ k₁ ∈ d'.punish, ∃ k₂ ∈ d'.punish, k₁ ≠ k₂ ∧ k₁ ∉ d.punish ∧ k₂ ∉ d.punish ∧
      Spec.Guaranteed E.ver k₁ v.report ∧ Spec.Guaranteed E.ver k₂ v.report) := by
  obtain ⟨hA, e⟩ := transition_ok h
  have g := hA.verdicts v hv
  have hin : ∀ k ∈ offenders xt, k ∈ d'.punish := fun k hk => by rw [e]; exact mem_sortNat.2 (List.mem_append_right _ hk)
  refine ⟨fun ev => ?_, fun ev => ?_⟩
  · obtain ⟨f, hf, ef⟩ := List.countP_pos_iff.1 (g.faults (eval_good.2 ev))
    have ef : f.report = v.report := by simpa using ef
    have gf := hA.faults f hf
    obtain ⟨w, hw, er, eb⟩ := gf.verdict
    have hww : w = v := by
      have h1 := find_report hA.verdictsNodup hw
      have h2 := find_report hA.verdictsNodup hv
      rw [er, ef] at h1
      rw [h1] at h2
      exact Option.some.inj h2
    refine ⟨f.key, hin _ (List.mem_append_right _ (List.mem_map.2 ⟨f, hf, rfl⟩)), gf.valid.2, f.sig, ?_⟩
    rcases eb with ⟨_, e2⟩ | ⟨e1, _⟩
    · have := gf.sig; rw [e2, ef] at this; exact this
    · rw [hww, eval_bad] at e1; omega
  · have hc := g.culprits (eval_bad.2 ev)
    rw [List.countP_eq_length_filter] at hc
    have hsub : (xt.culprits.filter fun c => c.report == v.report).Sublist xt.culprits := List.filter_sublist
    have hnd : ((xt.culprits.filter fun c => c.report == v.report).map Culprit.key).Nodup := hA.culpritsNodup.sublist (hsub.map _)
    revert hc hnd
    cases hl : xt.culprits.filter fun c => c.report == v.report with
    | nil => intro hc; simp at hc
    | cons a l =>
      cases l with
      | nil => intro hc; simp at hc
      | cons b l =>
        intro _ hnd
        have ha : a ∈ xt.culprits ∧ (a.report == v.report) = true := List.mem_filter.1 (by rw [hl]; exact List.mem_cons_self)
        have hb : b ∈ xt.culprits ∧ (b.report == v.report) = true := List.mem_filter.1 (by rw [hl]; exact List.mem_cons_of_mem _ List.mem_cons_self)
        have ea : a.report = v.report := by simpa using ha.2
        have eb : b.report = v.report := by simpa using hb.2
        have ga := hA.culprits a ha.1
        have gb := hA.culprits b hb.1
        refine ⟨a.key, hin _ (List.mem_append_left _ (List.mem_map.2 ⟨a, ha.1, rfl⟩)), b.key, hin _ (List.mem_append_left _ (List.mem_map.2 ⟨b, hb.1, rfl⟩)), ?_,
          ga.valid.2, gb.valid.2, ⟨a.sig, by rw [← ea]; exact ga.sig⟩, ⟨b.sig, by rw [← eb]; exact gb.sig⟩⟩
        intro he
        simp only [List.map_cons, List.nodup_cons, List.mem_cons] at hnd
        exact hnd.1 (Or.inl he)

example : ∃ k ∈ Ex.after.punish, k ∉ Ex.start.punish ∧ Spec.Voted Ex.ver k 5 false :=
  (C27_consequences Ex.step (v := ⟨5, 4, [Ex.vote 10 0 5 true, Ex.vote 11 1 5 true, Ex.vote 12 2 5 true]⟩) (by simp [Ex.xt])).1 (by decide)

/-! ## Conflicting verdicts are attributable -/

/-- The set of keys a verdict is judged by. -/
def Spec.jury (E : Env σ) (v : Verdict σ) : List Nat := if v.epoch = E.epoch then E.active else E.past

theorem votes_all {v : Verdict σ} {n : Nat} (hl : v.js.length = n) (ha : Spec.ayes v = n) : ∀ j ∈ v.js, j.vote = true := by
  intro j hj
  rw [ayes_eq, ← hl, List.countP_eq_length] at ha
  exact ha j hj

theorem votes_none {v : Verdict σ} (ha : Spec.ayes v = 0) : ∀ j ∈ v.js, j.vote = false := by
  intro j hj
  rw [ayes_eq, List.countP_eq_zero] at ha
  simpa using ha j hj

/-- **C27**: if two extrinsics, of one chain or of two, find the same report good and bad by juries with the
same keys, more than a third of the validators signed both statements. -/
theorem C27_accountability {E₁ E₂ : Env σ} {d₁ d₁' d₂ d₂' : Disputes} {x₁ x₂ : Xt σ} (h₁ : transition E₁ d₁ x₁ = .ok d₁')
    (h₂ : transition E₂ d₂ x₂ = .ok d₂') {v₁ v₂ : Verdict σ} (m₁ : v₁ ∈ x₁.verdicts) (m₂ : v₂ ∈ x₂.verdicts) (hr : v₁.report = v₂.report)
    (hver : E₁.ver = E₂.ver) (hV : E₁.V = E₂.V) (hj : Spec.jury E₁ v₁ = Spec.jury E₂ v₂) (hlen : (Spec.jury E₁ v₁).length ≤ E₁.V)
    (hl₁ : v₁.js.length = 2 * E₁.V / 3 + 1) (hl₂ : v₂.js.length = 2 * E₂.V / 3 + 1)
    (good : Spec.ayes v₁ = 2 * E₁.V / 3 + 1) (bad : Spec.ayes v₂ = 0) :
    ∃ is : List Nat, is.Nodup ∧ E₁.V < 3 * is.length ∧
      ∀ i ∈ is, ∃ key, (Spec.jury E₁ v₁)[i]? = some key ∧ Spec.Voted E₁.ver key v₁.report true ∧ Spec.Voted E₁.ver key v₁.report false := by
  have g1 := (transition_ok h₁).1.verdicts v₁ m₁
  have g2 := (transition_ok h₂).1.verdicts v₂ m₂
  have s1 := checkSigs_iff.1 g1.sigs
  have s2 := checkSigs_iff.1 g2.sigs
  change ∀ j ∈ v₁.js, ∃ key, (Spec.jury E₁ v₁)[j.voter]? = some key ∧ _ at s1
  change ∀ j ∈ v₂.js, ∃ key, (Spec.jury E₂ v₂)[j.voter]? = some key ∧ _ at s2
  rw [← hj, ← hver, ← hr] at s2
  have lt : ∀ {js : List (Judgment σ)} {P : Judgment σ → Nat → Prop}, (∀ j ∈ js, ∃ key, (Spec.jury E₁ v₁)[j.voter]? = some key ∧ P j key) →
      ∀ i ∈ js.map Judgment.voter, i < E₁.V := by
    intro js P hs i hi
    obtain ⟨j, hj, e⟩ := List.mem_map.1 hi
    obtain ⟨key, hk, _⟩ := hs j hj
    have := (List.getElem?_eq_some_iff.1 hk).1
    rw [e] at this
    omega
  have hov := overlap g1.voters g2.voters (lt s1) (lt s2)
  rw [List.length_map, List.length_map, hl₁, hl₂, ← hV] at hov
  refine ⟨_, g1.voters.filter fun x => decide (x ∈ v₂.js.map Judgment.voter), by omega, ?_⟩
  · intro i hi
    obtain ⟨hi1, hi2⟩ := List.mem_filter.1 hi
    obtain ⟨j1, hj1, e1⟩ := List.mem_map.1 hi1
    obtain ⟨j2, hj2, e2⟩ := List.mem_map.1 (of_decide_eq_true hi2)
    obtain ⟨k1, hk1, sg1⟩ := s1 j1 hj1
    obtain ⟨k2, hk2, sg2⟩ := s2 j2 hj2
    rw [e1] at hk1
    rw [e2, hk1] at hk2
    rw [votes_all hl₁ good j1 hj1] at sg1
    rw [votes_none bad j2 hj2, ← Option.some.inj hk2] at sg2
    exact ⟨k1, hk1, ⟨j1.sig, sg1⟩, ⟨j2.sig, sg2⟩⟩

/-- The other fork finds report 5 bad. -/
def Ex.fork : Xt (Nat × Msg) :=
  { verdicts := [⟨5, 4, [Ex.vote 10 0 5 false, Ex.vote 11 1 5 false, Ex.vote 12 2 5 false]⟩],
    culprits := [⟨5, 10, 10, .guarantee 5⟩, ⟨5, 21, 21, .guarantee 5⟩], faults := [] }

example : ∃ is : List Nat, is.Nodup ∧ 3 < 3 * is.length ∧ ∀ i ∈ is, ∃ key, ([10, 11, 12] : List Nat)[i]? = some key ∧
    Spec.Voted Ex.ver key 5 true ∧ Spec.Voted Ex.ver key 5 false :=
  C27_accountability Ex.step (E₂ := Ex.env) (d₂ := Ex.start) (x₂ := Ex.fork) (d₂' := ⟨[1], [2, 5], [], [10, 21, 99]⟩) (by rfl)
    (v₁ := ⟨5, 4, [Ex.vote 10 0 5 true, Ex.vote 11 1 5 true, Ex.vote 12 2 5 true]⟩)
    (v₂ := ⟨5, 4, [Ex.vote 10 0 5 false, Ex.vote 11 1 5 false, Ex.vote 12 2 5 false]⟩) (by simp [Ex.xt]) (by simp [Ex.fork]) rfl rfl rfl rfl
    (by decide) (by decide) (by decide) (by decide) (by decide)

/-! ## Where the checks differ from the protocol -/

/-- A verdict of epoch 1000 and one of epoch 2^32 - 1 while the chain is in epoch 4, signed by the past set. -/
def Ex.future (epoch : Nat) : Xt (Nat × Msg) :=
  { verdicts := [⟨8, epoch, [Ex.vote 20 0 8 true, Ex.vote 21 1 8 true, Ex.vote 22 2 8 true]⟩], culprits := [], faults := [⟨8, false, 10, 10, .invalid 8⟩] }

/-- A verdict must be of the current or the previous epoch. One claiming any later epoch is accepted, judged
by the past set; only epoch 2^32 - 1 is refused, as too old (in a debug build the addition panics). -/
theorem C27_future_epoch_partial :
    (transition Ex.env Ex.start (Ex.future 1000) = .ok ⟨[1, 8], [2], [], [10, 99]⟩) ∧
    transition Ex.env Ex.start (Ex.future (2 ^ 32 - 1)) = .error .age := ⟨by rfl, by rfl⟩

/-- An offender against a report judged in an earlier block can never be recorded for it: the verdict must be
in the same extrinsic (the protocol accepts culprits and faults on reports already judged). -/
theorem C27_late_offender_partial {E : Env σ} {d : Disputes} {xt : Xt σ} {r : Nat} (hr : r ∈ Spec.recorded d)
    (hx : (∃ c ∈ xt.culprits, c.report = r) ∨ ∃ f ∈ xt.faults, f.report = r) : ∀ d', transition E d xt ≠ .ok d' := by
  intro d' h
  obtain ⟨hA, _⟩ := transition_ok h
  rcases hx with ⟨c, hc, ec⟩ | ⟨c, hc, ec⟩
  · obtain ⟨v, hv, er, _⟩ := (hA.culprits c hc).verdict
    exact (hA.verdicts v hv).fresh (by rw [er, ec]; exact hr)
  · obtain ⟨v, hv, er, _⟩ := (hA.faults c hc).verdict
    exact (hA.verdicts v hv).fresh (by rw [er, ec]; exact hr)

example : 2 ∈ Spec.recorded Ex.start := by decide

end Fastroll.Judge
