import Verif.Judge.Spec
import Verif.Judge.Quorum
/-! Lemmas on disputes. -/
namespace Fastroll.Judge
variable {σ : Type}

theorem insertNat_perm (x : Nat) (l : List Nat) : (insertNat x l).Perm (x :: l) := by
  induction l with
  | nil => exact List.Perm.refl _
  | cons y l ih =>
    unfold insertNat
    split
    · exact List.Perm.refl _
    · exact (ih.cons y).trans (List.Perm.swap x y l)

theorem sortNat_perm (l : List Nat) : (sortNat l).Perm l := by
  induction l with
  | nil => exact List.Perm.refl _
  | cons x l ih => exact (insertNat_perm x _).trans (ih.cons x)

theorem mem_sortNat {x : Nat} {l : List Nat} : x ∈ sortNat l ↔ x ∈ l := (sortNat_perm l).mem_iff

theorem insertNat_sorted {x : Nat} {l : List Nat} (h : l.Pairwise (· ≤ ·)) : (insertNat x l).Pairwise (· ≤ ·) := by
  induction l with
  | nil => simp [insertNat]
  | cons y l ih =>
    unfold insertNat
    have h' := List.pairwise_cons.1 h
    split
    · rename_i c
      refine List.pairwise_cons.2 ⟨fun z hz => ?_, h⟩
      rcases List.mem_cons.1 hz with e | hz
      · rw [e]; exact c
      · exact Nat.le_trans c (h'.1 z hz)
    · rename_i c
      refine List.pairwise_cons.2 ⟨fun z hz => ?_, ih h'.2⟩
      rcases List.mem_cons.1 ((insertNat_perm x l).mem_iff.1 hz) with e | hz
      · rw [e]; omega
      · exact h'.1 z hz

theorem sortNat_sorted (l : List Nat) : Spec.Sorted (sortNat l) := by
  induction l with
  | nil => exact List.Pairwise.nil
  | cons x l ih => exact insertNat_sorted ih

theorem noDup_iff {l seen : List Nat} : noDup l seen = true ↔ l.Nodup ∧ ∀ x ∈ l, x ∉ seen := by
  induction l generalizing seen with
  | nil => simp [noDup]
  | cons x l ih =>
    unfold noDup
    rw [Bool.and_eq_true, ih]
    simp only [Bool.not_eq_true', List.contains_eq_mem, decide_eq_false_iff_not, List.nodup_cons, List.mem_cons]
    constructor
    · rintro ⟨h1, h2, h3⟩
      refine ⟨⟨fun hx => h3 x hx (Or.inl rfl), h2⟩, ?_⟩
      rintro y (e | hy)
      · rw [e]; exact h1
      · exact fun hs => h3 y hy (Or.inr hs)
    · rintro ⟨⟨h1, h2⟩, h3⟩
      refine ⟨h3 x (Or.inl rfl), h2, ?_⟩
      rintro y hy (e | hs)
      · rw [e] at hy; exact h1 hy
      · exact h3 y (Or.inr hy) hs

theorem nodup_of_noDup {l : List Nat} (h : noDup l [] = true) : l.Nodup := (noDup_iff.1 h).1

theorem noDup_of_nodup {l : List Nat} (h : l.Nodup) : noDup l [] = true := noDup_iff.2 ⟨h, fun _ _ => List.not_mem_nil⟩

/-! ## What a successful check says -/

theorem checkSigs_ok {E : Env σ} {set : List Nat} {r : Nat} {js : List (Judgment σ)} (h : checkSigs E set r js = .ok ()) :
    ∀ j ∈ js, ∃ key, set[j.voter]? = some key ∧ E.ver key (voteMsg r j.vote) j.sig = true := by
  induction js with
  | nil => exact fun j hj => absurd hj List.not_mem_nil
  | cons a js ih =>
    unfold checkSigs at h
    intro j hj
    revert h
    cases e : set[a.voter]? with
    | none => exact fun h => by cases h
    | some key =>
      intro h
      dsimp only at h
      by_cases c : E.ver key (voteMsg r a.vote) a.sig = true
      · rw [if_pos c] at h
        rcases List.mem_cons.1 hj with e' | hj
        · rw [e']; exact ⟨key, e, c⟩
        · exact ih h j hj
      · rw [if_neg c] at h; cases h

/-- Everything an accepted verdict satisfies. -/
structure GoodVerdict (E : Env σ) (d : Disputes) (xt : Xt σ) (v : Verdict σ) : Prop where
  age : ¬ (v.epoch + 1) % 2 ^ 32 < E.epoch
  eval : v.eval E.V ≠ .invalid
  faults : v.eval E.V = .good → 1 ≤ xt.faults.countP fun f => f.report == v.report
  culprits : v.eval E.V = .bad → 2 ≤ xt.culprits.countP fun c => c.report == v.report
  fresh : v.report ∉ Spec.recorded d
  voters : (v.js.map Judgment.voter).Nodup
  sigs : checkSigs E (if v.epoch = E.epoch then E.active else E.past) v.report v.js = .ok ()

theorem checkVerdict_ok {E : Env σ} {d : Disputes} {xt : Xt σ} {v : Verdict σ} (h : checkVerdict E d xt v = .ok ()) : GoodVerdict E d xt v := by
  unfold checkVerdict at h
  by_cases c1 : (v.epoch + 1) % 2 ^ 32 < E.epoch
  · rw [if_pos c1] at h; cases h
  rw [if_neg c1] at h
  by_cases c2 : v.eval E.V = .invalid
  · rw [if_pos c2] at h; cases h
  rw [if_neg c2] at h
  by_cases c3 : v.eval E.V = .good ∧ (xt.faults.countP fun f => f.report == v.report) < 1
  · rw [if_pos c3] at h; cases h
  rw [if_neg c3] at h
  by_cases c4 : v.eval E.V = .bad ∧ (xt.culprits.countP fun f => f.report == v.report) < 2
  · rw [if_pos c4] at h; cases h
  rw [if_neg c4] at h
  by_cases c5 : (d.good ++ d.bad ++ d.wonky).contains v.report = true
  · rw [if_pos c5] at h; cases h
  rw [if_neg c5] at h
  by_cases c6 : (!sortedBy Judgment.voter v.js) = true
  · rw [if_pos c6] at h; cases h
  rw [if_neg c6] at h
  by_cases c7 : (!noDup (v.js.map Judgment.voter) []) = true
  · rw [if_pos c7] at h; cases h
  rw [if_neg c7] at h
  refine ⟨c1, c2, fun e => Nat.le_of_not_lt fun hl => c3 ⟨e, hl⟩, fun e => Nat.le_of_not_lt fun hl => c4 ⟨e, hl⟩, ?_, ?_, h⟩
  · intro hm
    exact c5 (by rw [List.contains_eq_mem]; exact decide_eq_true hm)
  · refine nodup_of_noDup ?_
    cases hb : noDup (v.js.map Judgment.voter) [] with
    | true => rfl
    | false => rw [hb] at c7; exact absurd rfl c7

theorem checkVerdicts_ok {E : Env σ} {d : Disputes} {xt : Xt σ} {vs : List (Verdict σ)} (h : checkVerdicts E d xt vs = .ok ()) :
    ∀ v ∈ vs, GoodVerdict E d xt v := by
  induction vs with
  | nil => exact fun v hv => absurd hv List.not_mem_nil
  | cons a vs ih =>
    unfold checkVerdicts at h
    revert h
    cases e : checkVerdict E d xt a with
    | error _ => exact fun h => by cases h
    | ok u =>
      intro h v hv
      cases u
      dsimp only at h
      rcases List.mem_cons.1 hv with e' | hv
      · rw [e']; exact checkVerdict_ok e
      · exact ih h v hv

/-- The key is a validator's and not punished yet. -/
theorem inValidSet_iff {E : Env σ} {d : Disputes} {k : Nat} : inValidSet E d k = true ↔ (k ∈ E.active ∨ k ∈ E.past) ∧ k ∉ d.punish := by
  unfold inValidSet
  simp

structure GoodCulprit (E : Env σ) (d : Disputes) (xt : Xt σ) (c : Culprit σ) : Prop where
  valid : (c.key ∈ E.active ∨ c.key ∈ E.past) ∧ c.key ∉ d.punish
  verdict : ∃ v ∈ xt.verdicts, v.report = c.report ∧ v.eval E.V = .bad
  sig : E.ver c.key (.guarantee c.report) c.sig = true

theorem checkCulprit_ok {E : Env σ} {d : Disputes} {xt : Xt σ} {c : Culprit σ} (h : checkCulprit E d xt c = .ok ()) : GoodCulprit E d xt c := by
  unfold checkCulprit at h
  by_cases c1 : d.punish.contains c.key = true
  · rw [if_pos c1] at h; cases h
  rw [if_neg c1] at h
  revert h
  cases e : xt.verdicts.find? fun v => v.report == c.report with
  | none => exact fun h => by cases h
  | some v =>
    intro h
    dsimp only at h
    by_cases c2 : v.eval E.V ≠ .bad
    · rw [if_pos c2] at h; cases h
    rw [if_neg c2] at h
    by_cases c3 : (!inValidSet E d c.key) = true
    · rw [if_pos c3] at h; cases h
    rw [if_neg c3] at h
    by_cases c4 : (!E.ver c.key (.guarantee c.report) c.sig) = true
    · rw [if_pos c4] at h; cases h
    refine ⟨inValidSet_iff.1 (by simpa using c3), ⟨v, List.mem_of_find?_eq_some e, ?_, Classical.not_not.1 c2⟩, by simpa using c4⟩
    have := List.find?_some e
    simpa using this

theorem checkCulprits_ok {E : Env σ} {d : Disputes} {xt : Xt σ} {cs : List (Culprit σ)} (h : checkCulprits E d xt cs = .ok ()) :
    ∀ c ∈ cs, GoodCulprit E d xt c := by
  induction cs with
  | nil => exact fun v hv => absurd hv List.not_mem_nil
  | cons a cs ih =>
    unfold checkCulprits at h
    revert h
    cases e : checkCulprit E d xt a with
    | error _ => exact fun h => by cases h
    | ok u =>
      intro h c hc
      cases u
      dsimp only at h
      rcases List.mem_cons.1 hc with e' | hc
      · rw [e']; exact checkCulprit_ok e
      · exact ih h c hc

structure GoodFault (E : Env σ) (d : Disputes) (xt : Xt σ) (f : Fault σ) : Prop where
  valid : (f.key ∈ E.active ∨ f.key ∈ E.past) ∧ f.key ∉ d.punish
  verdict : ∃ v ∈ xt.verdicts, v.report = f.report ∧ ((v.eval E.V = .good ∧ f.vote = false) ∨ (v.eval E.V = .bad ∧ f.vote = true))
  sig : E.ver f.key (voteMsg f.report f.vote) f.sig = true

theorem isFault_iff {e : Eval} {b : Bool} : isFault e b = true ↔ (e = .good ∧ b = false) ∨ (e = .bad ∧ b = true) := by
  cases e <;> cases b <;> simp [isFault]

theorem checkFault_ok {E : Env σ} {d : Disputes} {xt : Xt σ} {f : Fault σ} (h : checkFault E d xt f = .ok ()) : GoodFault E d xt f := by
  unfold checkFault at h
  by_cases c1 : d.punish.contains f.key = true
  · rw [if_pos c1] at h; cases h
  rw [if_neg c1] at h
  revert h
  cases e : xt.verdicts.find? fun v => v.report == f.report with
  | none => exact fun h => by cases h
  | some v =>
    intro h
    dsimp only at h
    by_cases c2 : (!isFault (v.eval E.V) f.vote) = true
    · rw [if_pos c2] at h; cases h
    rw [if_neg c2] at h
    by_cases c3 : (!inValidSet E d f.key) = true
    · rw [if_pos c3] at h; cases h
    rw [if_neg c3] at h
    by_cases c4 : (!E.ver f.key (voteMsg f.report f.vote) f.sig) = true
    · rw [if_pos c4] at h; cases h
    refine ⟨inValidSet_iff.1 (by simpa using c3), ⟨v, List.mem_of_find?_eq_some e, ?_, isFault_iff.1 (by simpa using c2)⟩, by simpa using c4⟩
    have := List.find?_some e
    simpa using this

theorem checkFaults_ok {E : Env σ} {d : Disputes} {xt : Xt σ} {fs : List (Fault σ)} (h : checkFaults E d xt fs = .ok ()) :
    ∀ f ∈ fs, GoodFault E d xt f := by
  induction fs with
  | nil => exact fun v hv => absurd hv List.not_mem_nil
  | cons a fs ih =>
    unfold checkFaults at h
    revert h
    cases e : checkFault E d xt a with
    | error _ => exact fun h => by cases h
    | ok u =>
      intro h c hc
      cases u
      dsimp only at h
      rcases List.mem_cons.1 hc with e' | hc
      · rw [e']; exact checkFault_ok e
      · exact ih h c hc

/-- Everything an accepted extrinsic satisfies. -/
structure Accepted (E : Env σ) (d : Disputes) (xt : Xt σ) : Prop where
  verdictsNodup : (xt.verdicts.map Verdict.report).Nodup
  culpritsNodup : (xt.culprits.map Culprit.key).Nodup
  faultsNodup : (xt.faults.map Fault.key).Nodup
  verdicts : ∀ v ∈ xt.verdicts, GoodVerdict E d xt v
  culprits : ∀ c ∈ xt.culprits, GoodCulprit E d xt c
  faults : ∀ f ∈ xt.faults, GoodFault E d xt f

theorem isEmpty_nil {α : Type} {l : List α} (h : l.isEmpty = true) : l = [] := List.isEmpty_iff.1 h

theorem validate_ok {E : Env σ} {d : Disputes} {xt : Xt σ} (h : validate E d xt = .ok ()) : Accepted E d xt := by
  unfold validate at h
  by_cases c1 : (xt.verdicts.isEmpty && xt.culprits.isEmpty && xt.faults.isEmpty) = true
  · simp only [Bool.and_eq_true, List.isEmpty_iff] at c1
    obtain ⟨⟨e1, e2⟩, e3⟩ := c1
    constructor <;> simp [e1, e2, e3]
  rw [if_neg c1] at h
  by_cases c2 : (!sortedBy Verdict.report xt.verdicts) = true
  · rw [if_pos c2] at h; cases h
  rw [if_neg c2] at h
  by_cases c3 : (!sortedBy Culprit.key xt.culprits) = true
  · rw [if_pos c3] at h; cases h
  rw [if_neg c3] at h
  by_cases c4 : (!sortedBy Fault.key xt.faults) = true
  · rw [if_pos c4] at h; cases h
  rw [if_neg c4] at h
  by_cases c5 : (!noDup (xt.verdicts.map Verdict.report) []) = true
  · rw [if_pos c5] at h; cases h
  rw [if_neg c5] at h
  have n1 := nodup_of_noDup (l := xt.verdicts.map Verdict.report) (by simpa using c5)
  revert h
  cases e : checkVerdicts E d xt xt.verdicts with
  | error _ => exact fun h => by cases h
  | ok u =>
    cases u
    intro h
    dsimp only at h
    have g1 := checkVerdicts_ok e
    by_cases c6 : (xt.culprits.isEmpty && xt.faults.isEmpty) = true
    · simp only [Bool.and_eq_true, List.isEmpty_iff] at c6
      obtain ⟨e2, e3⟩ := c6
      refine ⟨n1, ?_, ?_, g1, ?_, ?_⟩ <;> simp [e2, e3]
    rw [if_neg c6] at h
    by_cases c7 : (!noDup (xt.culprits.map Culprit.key) []) = true
    · rw [if_pos c7] at h; cases h
    rw [if_neg c7] at h
    have n2 := nodup_of_noDup (l := xt.culprits.map Culprit.key) (by simpa using c7)
    revert h
    cases e2 : checkCulprits E d xt xt.culprits with
    | error _ => exact fun h => by cases h
    | ok u =>
      cases u
      intro h
      dsimp only at h
      by_cases c8 : (!noDup (xt.faults.map Fault.key) []) = true
      · rw [if_pos c8] at h; cases h
      rw [if_neg c8] at h
      have n3 := nodup_of_noDup (l := xt.faults.map Fault.key) (by simpa using c8)
      exact ⟨n1, n2, n3, g1, checkCulprits_ok e2, checkFaults_ok h⟩

theorem transition_ok {E : Env σ} {d d' : Disputes} {xt : Xt σ} (h : transition E d xt = .ok d') :
    Accepted E d xt ∧
    d' = { good := sortNat (d.good ++ split E.V .good xt.verdicts), bad := sortNat (d.bad ++ split E.V .bad xt.verdicts),
           wonky := sortNat (d.wonky ++ split E.V .wonky xt.verdicts), punish := sortNat (d.punish ++ offenders xt) } := by
  unfold transition at h
  revert h
  cases e : validate E d xt with
  | error _ => exact fun h => by cases h
  | ok u =>
    cases u
    intro h
    injection h with h
    exact ⟨validate_ok e, h.symm⟩

/-! ## Votes -/

theorem ayes_eq (v : Verdict σ) : Spec.ayes v = v.js.countP Judgment.vote := by
  unfold Spec.ayes
  rw [List.countP_eq_length_filter]
  congr 1
  refine List.filter_congr fun j _ => ?_
  cases j.vote <;> rfl

theorem eval_good {V : Nat} {v : Verdict σ} : v.eval V = .good ↔ Spec.ayes v = 2 * V / 3 + 1 := by
  rw [ayes_eq]
  unfold Verdict.eval super
  dsimp only
  have e : V * 2 / 3 + 1 = 2 * V / 3 + 1 := by omega
  rw [e]
  by_cases c : v.js.countP Judgment.vote = 2 * V / 3 + 1
  · simp [c]
  · rw [if_neg c]
    refine ⟨fun h => ?_, fun h => absurd h c⟩
    split at h
    · cases h
    · split at h <;> cases h

theorem eval_bad {V : Nat} {v : Verdict σ} : v.eval V = .bad ↔ Spec.ayes v = 0 := by
  rw [ayes_eq]
  unfold Verdict.eval super
  dsimp only
  by_cases c : v.js.countP Judgment.vote = V * 2 / 3 + 1
  · rw [if_pos c]
    refine ⟨(fun h => by cases h), fun h => by omega⟩
  · rw [if_neg c]
    by_cases c2 : v.js.countP Judgment.vote = 0
    · simp [c2]
    · rw [if_neg c2]
      refine ⟨fun h => ?_, fun h => absurd h c2⟩
      split at h <;> cases h

theorem eval_wonky {V : Nat} {v : Verdict σ} : v.eval V = .wonky ↔ (Spec.ayes v = V / 3 ∧ 3 ≤ V) := by
  rw [ayes_eq]
  unfold Verdict.eval super third
  dsimp only
  by_cases c : v.js.countP Judgment.vote = V * 2 / 3 + 1
  · rw [if_pos c]
    refine ⟨(fun h => by cases h), fun h => by omega⟩
  · rw [if_neg c]
    by_cases c2 : v.js.countP Judgment.vote = 0
    · rw [if_pos c2]
      refine ⟨(fun h => by cases h), fun h => by omega⟩
    · rw [if_neg c2]
      by_cases c3 : v.js.countP Judgment.vote = V / 3
      · rw [if_pos c3]
        exact ⟨fun _ => ⟨c3, by omega⟩, fun _ => rfl⟩
      · rw [if_neg c3]
        exact ⟨(fun h => by cases h), fun h => absurd h.1 c3⟩

theorem mem_split {V : Nat} {e : Eval} {vs : List (Verdict σ)} {r : Nat} : r ∈ split V e vs ↔ ∃ v ∈ vs, v.report = r ∧ v.eval V = e := by
  unfold split
  simp only [List.mem_map, List.mem_filter, decide_eq_true_eq]
  constructor
  · rintro ⟨v, ⟨h1, h2⟩, h3⟩; exact ⟨v, h1, h3, h2⟩
  · rintro ⟨v, h1, h3, h2⟩; exact ⟨v, ⟨h1, h2⟩, h3⟩

theorem split_perm {V : Nat} {vs : List (Verdict σ)} (h : ∀ v ∈ vs, v.eval V ≠ .invalid) :
    (split V .good vs ++ split V .bad vs ++ split V .wonky vs).Perm (vs.map Verdict.report) := by
  induction vs with
  | nil => exact List.Perm.refl _
  | cons v vs ih =>
    have ih := ih fun w hw => h w (List.mem_cons_of_mem v hw)
    have hv := h v List.mem_cons_self
    unfold split at ih ⊢
    cases e : v.eval V with
    | invalid => exact absurd e hv
    | good => simpa [List.filter_cons, e] using ih
    | bad =>
      simp only [List.filter_cons, e, List.map_cons]
      refine List.Perm.trans ?_ (ih.cons v.report)
      simpa using List.perm_middle
    | wonky =>
      simp only [List.filter_cons, e, List.map_cons]
      refine List.Perm.trans ?_ (ih.cons v.report)
      simpa [split] using List.perm_middle (a := v.report) (l₁ := split V .good vs ++ split V .bad vs) (l₂ := split V .wonky vs)

/-- The records after an accepted extrinsic are the old ones and the new reports. -/
theorem recorded_perm {E : Env σ} {d d' : Disputes} {xt : Xt σ} (h : transition E d xt = .ok d') :
    (Spec.recorded d').Perm (Spec.recorded d ++ xt.verdicts.map Verdict.report) := by
  obtain ⟨hA, e⟩ := transition_ok h
  have hp := split_perm (V := E.V) fun v hv => (hA.verdicts v hv).eval
  unfold Spec.recorded
  rw [e]
  dsimp only
  refine List.Perm.trans (((sortNat_perm _).append (sortNat_perm _)).append (sortNat_perm _)) ?_
  refine List.Perm.trans ?_ (List.Perm.append_left _ hp)
  generalize split E.V .good xt.verdicts = g
  generalize split E.V .bad xt.verdicts = b
  generalize split E.V .wonky xt.verdicts = w
  rw [List.perm_iff_count]
  intro x
  simp only [List.count_append]
  omega

theorem recorded_nodup {E : Env σ} {d d' : Disputes} {xt : Xt σ} (h : transition E d xt = .ok d') (hn : (Spec.recorded d).Nodup) :
    (Spec.recorded d').Nodup := by
  obtain ⟨hA, _⟩ := transition_ok h
  refine (recorded_perm h).nodup_iff.2 (List.nodup_append.2 ⟨hn, hA.verdictsNodup, ?_⟩)
  intro x hx y hy e
  obtain ⟨v, hv, ev⟩ := List.mem_map.1 hy
  exact (hA.verdicts v hv).fresh (by rw [ev, ← e]; exact hx)

/-! ## Chains -/

theorem history_cons {b : Env σ × Xt σ} {bs : List (Env σ × Xt σ)} {d d' : Disputes} (h : history (b :: bs) d = .ok d') :
    ∃ m, transition b.1 d b.2 = .ok m ∧ history bs m = .ok d' := by
  unfold history at h
  revert h
  cases e : transition b.1 d b.2 with
  | error _ => exact fun h => by cases h
  | ok m => exact fun h => ⟨m, rfl, h⟩

theorem history_append {bs cs : List (Env σ × Xt σ)} {d d' : Disputes} (h : history (bs ++ cs) d = .ok d') :
    ∃ m, history bs d = .ok m ∧ history cs m = .ok d' := by
  induction bs generalizing d with
  | nil => exact ⟨d, rfl, h⟩
  | cons b bs ih =>
    obtain ⟨m, h1, h2⟩ := history_cons h
    obtain ⟨m', h3, h4⟩ := ih h2
    exact ⟨m', by unfold history; rw [h1]; exact h3, h4⟩

/-- The state a block of a chain was applied to. -/
theorem history_mem {bs : List (Env σ × Xt σ)} {d d' : Disputes} (h : history bs d = .ok d') {b : Env σ × Xt σ} (hb : b ∈ bs) :
    ∃ pre post m m', bs = pre ++ b :: post ∧ history pre d = .ok m ∧ transition b.1 m b.2 = .ok m' ∧ history post m' = .ok d' := by
  obtain ⟨pre, post, e⟩ := List.append_of_mem hb
  rw [e] at h
  obtain ⟨m, h1, h2⟩ := history_append h
  obtain ⟨m', h3, h4⟩ := history_cons h2
  exact ⟨pre, post, m, m', e, h1, h3, h4⟩

theorem history_recorded {bs : List (Env σ × Xt σ)} {d d' : Disputes} (h : history bs d = .ok d') :
    (Spec.recorded d').Perm (Spec.recorded d ++ Spec.judged bs) := by
  induction bs generalizing d with
  | nil =>
    injection h with h
    rw [← h]; unfold Spec.judged; simp
  | cons b bs ih =>
    obtain ⟨m, h1, h2⟩ := history_cons h
    refine (ih h2).trans (((recorded_perm h1).append_right _).trans ?_)
    unfold Spec.judged
    rw [List.flatMap_cons, List.append_assoc]

theorem history_nodup {bs : List (Env σ × Xt σ)} {d d' : Disputes} (h : history bs d = .ok d') (hn : (Spec.recorded d).Nodup) :
    (Spec.recorded d').Nodup := by
  induction bs generalizing d with
  | nil => injection h with h; rw [← h]; exact hn
  | cons b bs ih =>
    obtain ⟨m, h1, h2⟩ := history_cons h
    exact ih h2 (recorded_nodup h1 hn)

theorem history_good {bs : List (Env σ × Xt σ)} {d d' : Disputes} (h : history bs d = .ok d') (r : Nat) :
    r ∈ d'.good ↔ (r ∈ d.good ∨ ∃ E v, Spec.Said bs E v ∧ v.report = r ∧ v.eval E.V = .good) := by
  induction bs generalizing d with
  | nil =>
    injection h with h
    rw [h]
    refine ⟨Or.inl, fun h => h.elim id ?_⟩
    rintro ⟨E, v, ⟨x, hx, _⟩, _⟩
    exact absurd hx List.not_mem_nil
  | cons b bs ih =>
    obtain ⟨m, h1, h2⟩ := history_cons h
    rw [ih h2, (transition_ok h1).2]
    dsimp only
    rw [mem_sortNat, List.mem_append, mem_split]
    constructor
    · rintro ((h | ⟨v, hv, e1, e2⟩) | ⟨E, v, ⟨x, hx, hv⟩, e⟩)
      · exact Or.inl h
      · exact Or.inr ⟨b.1, v, ⟨b.2, List.mem_cons_self, hv⟩, e1, e2⟩
      · exact Or.inr ⟨E, v, ⟨x, List.mem_cons_of_mem _ hx, hv⟩, e⟩
    · rintro (h | ⟨E, v, ⟨x, hx, hv⟩, e1, e2⟩)
      · exact Or.inl (Or.inl h)
      · rcases List.mem_cons.1 hx with eb | hx
        · refine Or.inl (Or.inr ⟨v, ?_, e1, ?_⟩) <;> rw [← eb] <;> assumption
        · exact Or.inr ⟨E, v, ⟨x, hx, hv⟩, e1, e2⟩

theorem history_bad {bs : List (Env σ × Xt σ)} {d d' : Disputes} (h : history bs d = .ok d') (r : Nat) :
    r ∈ d'.bad ↔ (r ∈ d.bad ∨ ∃ E v, Spec.Said bs E v ∧ v.report = r ∧ v.eval E.V = .bad) := by
  induction bs generalizing d with
  | nil =>
    injection h with h
    rw [h]
    refine ⟨Or.inl, fun h => h.elim id ?_⟩
    rintro ⟨E, v, ⟨x, hx, _⟩, _⟩
    exact absurd hx List.not_mem_nil
  | cons b bs ih =>
    obtain ⟨m, h1, h2⟩ := history_cons h
    rw [ih h2, (transition_ok h1).2]
    dsimp only
    rw [mem_sortNat, List.mem_append, mem_split]
    constructor
    · rintro ((h | ⟨v, hv, e1, e2⟩) | ⟨E, v, ⟨x, hx, hv⟩, e⟩)
      · exact Or.inl h
      · exact Or.inr ⟨b.1, v, ⟨b.2, List.mem_cons_self, hv⟩, e1, e2⟩
      · exact Or.inr ⟨E, v, ⟨x, List.mem_cons_of_mem _ hx, hv⟩, e⟩
    · rintro (h | ⟨E, v, ⟨x, hx, hv⟩, e1, e2⟩)
      · exact Or.inl (Or.inl h)
      · rcases List.mem_cons.1 hx with eb | hx
        · refine Or.inl (Or.inr ⟨v, ?_, e1, ?_⟩) <;> rw [← eb] <;> assumption
        · exact Or.inr ⟨E, v, ⟨x, hx, hv⟩, e1, e2⟩

theorem history_wonky {bs : List (Env σ × Xt σ)} {d d' : Disputes} (h : history bs d = .ok d') (r : Nat) :
    r ∈ d'.wonky ↔ (r ∈ d.wonky ∨ ∃ E v, Spec.Said bs E v ∧ v.report = r ∧ v.eval E.V = .wonky) := by
  induction bs generalizing d with
  | nil =>
    injection h with h
    rw [h]
    refine ⟨Or.inl, fun h => h.elim id ?_⟩
    rintro ⟨E, v, ⟨x, hx, _⟩, _⟩
    exact absurd hx List.not_mem_nil
  | cons b bs ih =>
    obtain ⟨m, h1, h2⟩ := history_cons h
    rw [ih h2, (transition_ok h1).2]
    dsimp only
    rw [mem_sortNat, List.mem_append, mem_split]
    constructor
    · rintro ((h | ⟨v, hv, e1, e2⟩) | ⟨E, v, ⟨x, hx, hv⟩, e⟩)
      · exact Or.inl h
      · exact Or.inr ⟨b.1, v, ⟨b.2, List.mem_cons_self, hv⟩, e1, e2⟩
      · exact Or.inr ⟨E, v, ⟨x, List.mem_cons_of_mem _ hx, hv⟩, e⟩
    · rintro (h | ⟨E, v, ⟨x, hx, hv⟩, e1, e2⟩)
      · exact Or.inl (Or.inl h)
      · rcases List.mem_cons.1 hx with eb | hx
        · refine Or.inl (Or.inr ⟨v, ?_, e1, ?_⟩) <;> rw [← eb] <;> assumption
        · exact Or.inr ⟨E, v, ⟨x, hx, hv⟩, e1, e2⟩

theorem history_punish {bs : List (Env σ × Xt σ)} {d d' : Disputes} (h : history bs d = .ok d') :
    d'.punish.Perm (d.punish ++ bs.flatMap fun b => offenders b.2) := by
  induction bs generalizing d with
  | nil => injection h with h; rw [← h]; simp
  | cons b bs ih =>
    obtain ⟨m, h1, h2⟩ := history_cons h
    refine (ih h2).trans ?_
    rw [(transition_ok h1).2]
    dsimp only
    refine ((sortNat_perm _).append_right _).trans ?_
    rw [List.flatMap_cons, List.append_assoc]

theorem history_sorted {bs : List (Env σ × Xt σ)} {d d' : Disputes} (h : history bs d = .ok d')
    (hs : Spec.Sorted d.good ∧ Spec.Sorted d.bad ∧ Spec.Sorted d.wonky ∧ Spec.Sorted d.punish) :
    Spec.Sorted d'.good ∧ Spec.Sorted d'.bad ∧ Spec.Sorted d'.wonky ∧ Spec.Sorted d'.punish := by
  induction bs generalizing d with
  | nil => injection h with h; rw [← h]; exact hs
  | cons b bs ih =>
    obtain ⟨m, h1, h2⟩ := history_cons h
    refine ih h2 ?_
    rw [(transition_ok h1).2]
    exact ⟨sortNat_sorted _, sortNat_sorted _, sortNat_sorted _, sortNat_sorted _⟩

/-- New offenders were not punished before. -/
theorem offenders_fresh {E : Env σ} {d : Disputes} {xt : Xt σ} (hA : Accepted E d xt) {k : Nat} (hk : k ∈ offenders xt) :
    (k ∈ E.active ∨ k ∈ E.past) ∧ k ∉ d.punish := by
  unfold offenders at hk
  rcases List.mem_append.1 hk with h | h
  · obtain ⟨c, hc, e⟩ := List.mem_map.1 h
    rw [← e]; exact (hA.culprits c hc).valid
  · obtain ⟨c, hc, e⟩ := List.mem_map.1 h
    rw [← e]; exact (hA.faults c hc).valid

theorem history_punish_nodup {bs : List (Env σ × Xt σ)} {d d' : Disputes} (h : history bs d = .ok d') (hn : d.punish.Nodup)
    (hx : ∀ b ∈ bs, ∀ c ∈ b.2.culprits, ∀ f ∈ b.2.faults, c.key ≠ f.key) : d'.punish.Nodup := by
  induction bs generalizing d with
  | nil => injection h with h; rw [← h]; exact hn
  | cons b bs ih =>
    obtain ⟨m, h1, h2⟩ := history_cons h
    obtain ⟨hA, e⟩ := transition_ok h1
    refine ih h2 ?_ fun b hb => hx b (List.mem_cons_of_mem _ hb)
    rw [e]
    refine (sortNat_perm _).nodup_iff.2 (List.nodup_append.2 ⟨hn, ?_, ?_⟩)
    · refine List.nodup_append.2 ⟨hA.culpritsNodup, hA.faultsNodup, ?_⟩
      intro x hc y hf e
      obtain ⟨c, hc, ec⟩ := List.mem_map.1 hc
      obtain ⟨f, hf, ef⟩ := List.mem_map.1 hf
      exact hx b List.mem_cons_self c hc f hf (by rw [ec, ef, e])
    · intro x hx' y hy e
      exact (offenders_fresh hA hy).2 (by rw [← e]; exact hx')

theorem history_punish_count {bs : List (Env σ × Xt σ)} {d d' : Disputes} (h : history bs d = .ok d') (hn : ∀ k, d.punish.count k ≤ 2) :
    ∀ k, d'.punish.count k ≤ 2 := by
  induction bs generalizing d with
  | nil => injection h with h; rw [← h]; exact hn
  | cons b bs ih =>
    obtain ⟨m, h1, h2⟩ := history_cons h
    obtain ⟨hA, e⟩ := transition_ok h1
    refine ih h2 fun k => ?_
    rw [e]
    dsimp only
    rw [(sortNat_perm _).count_eq, List.count_append]
    by_cases c : k ∈ offenders b.2
    · have h0 := List.count_eq_zero.2 (offenders_fresh hA c).2
      have h1 := List.nodup_iff_count.1 hA.culpritsNodup k
      have h2 := List.nodup_iff_count.1 hA.faultsNodup k
      unfold offenders
      rw [List.count_append]
      omega
    · have := List.count_eq_zero.2 c
      have := hn k
      omega

/-! ## Acceptance is exactly the specification -/

theorem sortedBy_iff {α : Type} {f : α → Nat} {l : List α} : sortedBy f l = true ↔ (l.map f).Pairwise (· ≤ ·) := by
  induction l with
  | nil => simp [sortedBy]
  | cons a l ih =>
    cases l with
    | nil => simp [sortedBy]
    | cons b l =>
      unfold sortedBy
      rw [Bool.and_eq_true, ih, decide_eq_true_eq, List.map_cons (a := a), List.pairwise_cons]
      constructor
      · rintro ⟨h1, h2⟩
        refine ⟨fun x hx => ?_, h2⟩
        rw [List.map_cons] at hx h2
        rcases List.mem_cons.1 hx with e | hx
        · rw [e]; exact h1
        · exact Nat.le_trans h1 ((List.pairwise_cons.1 h2).1 x hx)
      · rintro ⟨h1, h2⟩
        exact ⟨h1 _ (by simp), h2⟩

theorem increasing_iff {l : List Nat} : Spec.Increasing l ↔ (l.Pairwise (· ≤ ·) ∧ l.Nodup) := by
  unfold Spec.Increasing List.Nodup
  rw [← List.pairwise_and_iff]
  constructor <;> intro h <;> refine h.imp ?_
  · intro a b h; exact ⟨by omega, by omega⟩
  · intro a b h; omega

theorem increasing_of {α : Type} {f : α → Nat} {l : List α} (h1 : ¬ (!sortedBy f l) = true) (h2 : ¬ (!noDup (l.map f) []) = true) :
    Spec.Increasing (l.map f) := increasing_iff.2 ⟨sortedBy_iff.1 (by simpa using h1), nodup_of_noDup (by simpa using h2)⟩

theorem voteMsg_eq (r : Nat) (b : Bool) : voteMsg r b = (Spec.statement r b) := by
  cases b <;> rfl

theorem checkSigs_iff {E : Env σ} {set : List Nat} {r : Nat} {js : List (Judgment σ)} :
    checkSigs E set r js = .ok () ↔ ∀ j ∈ js, ∃ key, set[j.voter]? = some key ∧ E.ver key (Spec.statement r j.vote) j.sig = true := by
  constructor
  · intro h j hj
    obtain ⟨k, h1, h2⟩ := checkSigs_ok h j hj
    exact ⟨k, h1, by rw [← voteMsg_eq]; exact h2⟩
  · intro h
    induction js with
    | nil => rfl
    | cons a js ih =>
      unfold checkSigs
      obtain ⟨k, h1, h2⟩ := h a List.mem_cons_self
      rw [h1]
      dsimp only
      rw [voteMsg_eq, if_pos h2]
      exact ih fun j hj => h j (List.mem_cons_of_mem _ hj)

theorem eval_valid {V : Nat} {v : Verdict σ} : v.eval V ≠ .invalid ↔ (Spec.ayes v = 2 * V / 3 + 1 ∨ Spec.ayes v = 0 ∨ Spec.ayes v = V / 3) := by
  constructor
  · intro h
    cases e : v.eval V with
    | invalid => exact absurd e h
    | good => exact Or.inl (eval_good.1 e)
    | bad => exact Or.inr (Or.inl (eval_bad.1 e))
    | wonky => exact Or.inr (Or.inr (eval_wonky.1 e).1)
  · rintro (h | h | h) e
    · rw [eval_good.2 h] at e; cases e
    · rw [eval_bad.2 h] at e; cases e
    · by_cases c : 3 ≤ V
      · rw [eval_wonky.2 ⟨h, c⟩] at e; cases e
      · have : Spec.ayes v = 0 := by omega
        rw [eval_bad.2 this] at e; cases e

theorem checkVerdict_iff {E : Env σ} {d : Disputes} {xt : Xt σ} {v : Verdict σ} (he : v.epoch + 1 < 2 ^ 32) :
    checkVerdict E d xt v = .ok () ↔ Spec.VerdictOk E d xt v := by
  constructor
  · intro h
    have g := checkVerdict_ok h
    refine ⟨?_, eval_valid.1 g.eval, ?_, ?_, g.fresh, ?_, checkSigs_iff.1 g.sigs⟩
    · have := g.age
      rw [Nat.mod_eq_of_lt he] at this
      omega
    · intro e
      have := g.faults (eval_good.2 e)
      obtain ⟨f, hf, ef⟩ := List.countP_pos_iff.1 this
      exact ⟨f, hf, by simpa using ef⟩
    · intro e
      have := g.culprits (eval_bad.2 e)
      rw [List.countP_eq_length_filter] at this
      have e2 : (xt.culprits.filter fun c => decide (c.report = v.report)) = xt.culprits.filter fun c => c.report == v.report :=
        List.filter_congr fun c _ => by by_cases hc : c.report = v.report <;> simp [hc]
      rw [e2]; exact this
    · refine increasing_iff.2 ⟨?_, g.voters⟩
      refine sortedBy_iff.1 ?_
      unfold checkVerdict at h
      repeat
        split at h
        · cases h
      rename_i c _
      simpa using c
  · intro g
    unfold checkVerdict
    rw [Nat.mod_eq_of_lt he, if_neg (by have := g.age; omega), if_neg (eval_valid.2 g.tally)]
    have c3 : ¬ (v.eval E.V = .good ∧ (xt.faults.countP fun f => f.report == v.report) < 1) := by
      rintro ⟨e, hl⟩
      obtain ⟨f, hf, ef⟩ := g.faults (eval_good.1 e)
      have := List.countP_pos_iff (p := fun f : Fault σ => f.report == v.report).2 ⟨f, hf, by simpa using ef⟩
      omega
    rw [if_neg c3]
    have c4 : ¬ (v.eval E.V = .bad ∧ (xt.culprits.countP fun f => f.report == v.report) < 2) := by
      rintro ⟨e, hl⟩
      have := g.culprits (eval_bad.1 e)
      rw [List.countP_eq_length_filter] at hl
      have e2 : (xt.culprits.filter fun c => decide (c.report = v.report)) = xt.culprits.filter fun c => c.report == v.report :=
        List.filter_congr fun c _ => by by_cases hc : c.report = v.report <;> simp [hc]
      rw [e2] at this
      omega
    rw [if_neg c4]
    have c5 : ¬ (d.good ++ d.bad ++ d.wonky).contains v.report = true := by
      intro h
      rw [List.contains_eq_mem] at h
      exact g.fresh (of_decide_eq_true h)
    rw [if_neg c5]
    have hv := increasing_iff.1 g.voters
    rw [if_neg (by rw [sortedBy_iff.2 hv.1]; simp), if_neg (by rw [noDup_of_nodup hv.2]; simp)]
    exact checkSigs_iff.2 g.signed

theorem checkVerdicts_iff {E : Env σ} {d : Disputes} {xt : Xt σ} {vs : List (Verdict σ)} :
    checkVerdicts E d xt vs = .ok () ↔ ∀ v ∈ vs, checkVerdict E d xt v = .ok () := by
  induction vs with
  | nil => exact ⟨fun _ v hv => absurd hv List.not_mem_nil, fun _ => rfl⟩
  | cons a vs ih =>
    unfold checkVerdicts
    rw [List.forall_mem_cons]
    cases e : checkVerdict E d xt a with
    | error _ => exact ⟨(fun h => by cases h), fun h => by cases h.1⟩
    | ok u => cases u; dsimp only; rw [ih]; simp

theorem checkCulprits_iff {E : Env σ} {d : Disputes} {xt : Xt σ} {cs : List (Culprit σ)} :
    checkCulprits E d xt cs = .ok () ↔ ∀ v ∈ cs, checkCulprit E d xt v = .ok () := by
  induction cs with
  | nil => exact ⟨fun _ v hv => absurd hv List.not_mem_nil, fun _ => rfl⟩
  | cons a vs ih =>
    unfold checkCulprits
    rw [List.forall_mem_cons]
    cases e : checkCulprit E d xt a with
    | error _ => exact ⟨(fun h => by cases h), fun h => by cases h.1⟩
    | ok u => cases u; dsimp only; rw [ih]; simp

theorem checkFaults_iff {E : Env σ} {d : Disputes} {xt : Xt σ} {cs : List (Fault σ)} :
    checkFaults E d xt cs = .ok () ↔ ∀ v ∈ cs, checkFault E d xt v = .ok () := by
  induction cs with
  | nil => exact ⟨fun _ v hv => absurd hv List.not_mem_nil, fun _ => rfl⟩
  | cons a vs ih =>
    unfold checkFaults
    rw [List.forall_mem_cons]
    cases e : checkFault E d xt a with
    | error _ => exact ⟨(fun h => by cases h), fun h => by cases h.1⟩
    | ok u => cases u; dsimp only; rw [ih]; simp

theorem find_report {vs : List (Verdict σ)} (hn : (vs.map Verdict.report).Nodup) {v : Verdict σ} (hv : v ∈ vs) :
    (vs.find? fun w => w.report == v.report) = some v := by
  induction vs with
  | nil => exact absurd hv List.not_mem_nil
  | cons a vs ih =>
    rw [List.map_cons, List.nodup_cons] at hn
    rcases List.mem_cons.1 hv with e | hv
    · rw [e]; simp
    · have hne : a.report ≠ v.report := fun e => hn.1 (by rw [e]; exact List.mem_map.2 ⟨v, hv, rfl⟩)
      rw [List.find?_cons_of_neg (by simpa using hne)]
      exact ih hn.2 hv

theorem checkCulprit_iff {E : Env σ} {d : Disputes} {xt : Xt σ} (hn : (xt.verdicts.map Verdict.report).Nodup) {c : Culprit σ} :
    checkCulprit E d xt c = .ok () ↔ (Spec.Punishable E d c.key ∧ (∃ v ∈ xt.verdicts, v.report = c.report ∧ Spec.ayes v = 0) ∧
      E.ver c.key (.guarantee c.report) c.sig = true) := by
  constructor
  · intro h
    have g := checkCulprit_ok h
    obtain ⟨v, hv, e, eb⟩ := g.verdict
    exact ⟨g.valid, ⟨v, hv, e, eval_bad.1 eb⟩, g.sig⟩
  · rintro ⟨h1, ⟨v, hv, e, eb⟩, h3⟩
    unfold checkCulprit
    rw [if_neg (by rw [List.contains_eq_mem]; simpa using h1.2), ← e, find_report hn hv]
    dsimp only
    rw [if_neg (by simpa using eval_bad.2 eb), if_neg (by rw [inValidSet_iff.2 h1]; simp), e, if_neg (by rw [h3]; simp)]

theorem checkFault_iff {E : Env σ} {d : Disputes} {xt : Xt σ} (hn : (xt.verdicts.map Verdict.report).Nodup) {f : Fault σ} :
    checkFault E d xt f = .ok () ↔ (Spec.Punishable E d f.key ∧
    (∃ v ∈ xt.verdicts, v.report = f.report ∧ (f.vote = false ∧ Spec.ayes v = 2 * E.V / 3 + 1 ∨ f.vote = true ∧ Spec.ayes v = 0)) ∧
    E.ver f.key (Spec.statement f.report f.vote) f.sig = true) := by
  constructor
  · intro h
    have g := checkFault_ok h
    obtain ⟨v, hv, e, eb⟩ := g.verdict
    refine ⟨g.valid, ⟨v, hv, e, ?_⟩, by rw [← voteMsg_eq]; exact g.sig⟩
    rcases eb with ⟨e1, e2⟩ | ⟨e1, e2⟩
    · exact Or.inl ⟨e2, eval_good.1 e1⟩
    · exact Or.inr ⟨e2, eval_bad.1 e1⟩
  · rintro ⟨h1, ⟨v, hv, e, eb⟩, h3⟩
    unfold checkFault
    rw [if_neg (by rw [List.contains_eq_mem]; simpa using h1.2), ← e, find_report hn hv]
    dsimp only
    have hf : isFault (v.eval E.V) f.vote = true := by
      rw [isFault_iff]
      rcases eb with ⟨e1, e2⟩ | ⟨e1, e2⟩
      · exact Or.inl ⟨eval_good.2 e2, e1⟩
      · exact Or.inr ⟨eval_bad.2 e2, e1⟩
    rw [if_neg (by rw [hf]; simp), if_neg (by rw [inValidSet_iff.2 h1]; simp), e, voteMsg_eq, if_neg (by rw [h3]; simp)]

theorem validate_iff {E : Env σ} {d : Disputes} {xt : Xt σ} (he : ∀ v ∈ xt.verdicts, v.epoch + 1 < 2 ^ 32) :
    validate E d xt = .ok () ↔ Spec.Proper E d xt := by
  constructor
  · intro h
    have hA := validate_ok h
    have key : Spec.Increasing (xt.verdicts.map Verdict.report) ∧ Spec.Increasing (xt.culprits.map Culprit.key) ∧
        Spec.Increasing (xt.faults.map Fault.key) ∧ (∀ v ∈ xt.verdicts, checkVerdict E d xt v = .ok ()) := by
      unfold validate at h
      by_cases c1 : (xt.verdicts.isEmpty && xt.culprits.isEmpty && xt.faults.isEmpty) = true
      · simp only [Bool.and_eq_true, List.isEmpty_iff] at c1
        obtain ⟨⟨e1, e2⟩, e3⟩ := c1
        simp [Spec.Increasing, e1, e2, e3]
      rw [if_neg c1] at h
      by_cases c2 : (!sortedBy Verdict.report xt.verdicts) = true
      · rw [if_pos c2] at h; cases h
      rw [if_neg c2] at h
      by_cases c3 : (!sortedBy Culprit.key xt.culprits) = true
      · rw [if_pos c3] at h; cases h
      rw [if_neg c3] at h
      by_cases c4 : (!sortedBy Fault.key xt.faults) = true
      · rw [if_pos c4] at h; cases h
      rw [if_neg c4] at h
      by_cases c5 : (!noDup (xt.verdicts.map Verdict.report) []) = true
      · rw [if_pos c5] at h; cases h
      rw [if_neg c5] at h
      refine ⟨increasing_of c2 c5, increasing_iff.2 ⟨sortedBy_iff.1 (by simpa using c3), hA.culpritsNodup⟩,
        increasing_iff.2 ⟨sortedBy_iff.1 (by simpa using c4), hA.faultsNodup⟩, ?_⟩
      revert h
      cases e : checkVerdicts E d xt xt.verdicts with
      | error _ => exact fun h => by cases h
      | ok u => cases u; exact fun _ => checkVerdicts_iff.1 e
    obtain ⟨k1, k2, k3, k4⟩ := key
    have hn := hA.verdictsNodup
    refine ⟨k1, k2, k3, fun v hv => (checkVerdict_iff (he v hv)).1 (k4 v hv), ?_, ?_⟩
    · intro c hc
      have g := hA.culprits c hc
      obtain ⟨v, hv, e, eb⟩ := g.verdict
      exact ⟨g.valid, ⟨v, hv, e, eval_bad.1 eb⟩, g.sig⟩
    · intro f hf
      have g := hA.faults f hf
      obtain ⟨v, hv, e, eb⟩ := g.verdict
      refine ⟨g.valid, ⟨v, hv, e, ?_⟩, by rw [← voteMsg_eq]; exact g.sig⟩
      rcases eb with ⟨e1, e2⟩ | ⟨e1, e2⟩
      · exact Or.inl ⟨e2, eval_good.1 e1⟩
      · exact Or.inr ⟨e2, eval_bad.1 e1⟩
  · intro g
    have i1 := increasing_iff.1 g.verdictsUp
    have i2 := increasing_iff.1 g.culpritsUp
    have i3 := increasing_iff.1 g.faultsUp
    unfold validate
    split
    · rfl
    rw [if_neg (by rw [sortedBy_iff.2 i1.1]; simp), if_neg (by rw [sortedBy_iff.2 i2.1]; simp), if_neg (by rw [sortedBy_iff.2 i3.1]; simp),
      if_neg (by rw [noDup_of_nodup i1.2]; simp), checkVerdicts_iff.2 fun v hv => (checkVerdict_iff (he v hv)).2 (g.verdicts v hv)]
    dsimp only
    split
    · rfl
    rw [if_neg (by rw [noDup_of_nodup i2.2]; simp), checkCulprits_iff.2 fun c hc => (checkCulprit_iff i1.2).2 (g.culprits c hc)]
    dsimp only
    rw [if_neg (by rw [noDup_of_nodup i3.2]; simp)]
    exact checkFaults_iff.2 fun c hc => (checkFault_iff i1.2).2 (g.faults c hc)

end Fastroll.Judge
