import Verif.Reports.Steps
import Verif.Reports.Total
/-!
# Work reports on chain (C28, C29, C37, C38, C45, C46)

For every state, block and chain of blocks, every signature scheme, hash function and choice of constants.
-/
namespace Fastroll.Reports
variable {σ : Type}

/-! ## A small chain to instantiate the theorems -/
namespace Ex
def ver (key : Nat) (_ : Judge.Msg) (s : Nat) : Bool := s == key
/-- Three validators, two cores, a history of two blocks, pools of two authorizers. -/
def par : Par := { V := 3, C := 2, timeout := 5, rotation := 4, maxAge := 14, maxDeps := 8, maxBytes := 100, maxGas := 50, histLen := 2, poolLen := 2, queueLen := 2 }
def env : Env Nat :=
  { hash := fun r => r.pkg + 1000, judge := { ver, V := 3, active := [10, 11, 12], past := [20, 21, 22], epoch := 0 }, verAvail := fun key _ _ s => s == key,
    current := ⟨[10, 11, 12], [0, 0, 1]⟩, previous := ⟨[10, 11, 12], [1, 1, 0]⟩, service := fun n => if n = 4 then some (44, 5) else none,
    accumulated := [], queued := [], ancestors := none, queues := [[60, 61], [70, 71]], mmr := 3 }
def r1 : Report := { pkg := 1, seg := 51, core := 0, auth := 30, anchor := 99, anchorRoot := 7, anchorMmr := 1, lookupHash := 0, lookupSlot := 0, prereqs := [], lookup := [], trace := 2, digests := [⟨4, 44, 6, 10⟩] }
def r2 : Report := { pkg := 2, seg := 52, core := 1, auth := 70, anchor := 100, anchorRoot := 8, anchorMmr := 3, lookupHash := 0, lookupSlot := 0, prereqs := [1], lookup := [(1, 51)], trace := 0, digests := [] }
def none' : Judge.Xt Nat := { verdicts := [], culprits := [], faults := [] }
/-- Report 1 is guaranteed on core 0. -/
def b1 : Block Nat := { header := 100, parent := 99, parentRoot := 7, slot := 2, disputes := none', assurances := [], guarantees := [⟨r1, 1, [⟨0, 10⟩, ⟨1, 11⟩]⟩] }
/-- Report 1 becomes available, report 2 is guaranteed on core 1 by the previous assignment. -/
def b2 : Block Nat := { header := 101, parent := 100, parentRoot := 8, slot := 5, disputes := none', assurances := [⟨100, [true, false], 0, 10⟩, ⟨100, [true, false], 1, 11⟩, ⟨100, [true, false], 2, 12⟩], guarantees := [⟨r2, 3, [⟨0, 10⟩, ⟨1, 11⟩]⟩] }
/-- Report 2 is judged wonky. -/
def b3 : Block Nat := { header := 102, parent := 101, parentRoot := 9, slot := 6, disputes := { verdicts := [⟨1002, 0, [⟨true, 0, 10⟩, ⟨false, 1, 11⟩, ⟨false, 2, 12⟩]⟩], culprits := [], faults := [] }, assurances := [], guarantees := [] }
def bs : List (Env Nat × Block Nat) := [(env, b1), (env, b2), (env, b3)]
def s0 : St := { pending := [none, none], hist := [⟨99, 1, 0, []⟩], pools := [[30, 31], [40]], judged := ⟨[], [], [], []⟩ }
def s1 : St := { pending := [some ⟨r1, 2⟩, none], hist := [⟨99, 1, 7, []⟩, ⟨100, 3, 0, [(1, 51)]⟩], pools := [[31, 60], [40, 70]], judged := ⟨[], [], [], []⟩ }
def s2 : St := { pending := [none, some ⟨r2, 5⟩], hist := [⟨100, 3, 8, [(1, 51)]⟩, ⟨101, 3, 0, [(2, 52)]⟩], pools := [[60, 61], [40, 71]], judged := ⟨[], [], [], []⟩ }
def s3 : St := { pending := [none, none], hist := [⟨101, 3, 9, [(2, 52)]⟩, ⟨102, 3, 0, []⟩], pools := [[61, 60], [71, 70]], judged := ⟨[], [], [1002], []⟩ }
theorem step1 : step par env s0 b1 = .ok (s1, [], [10, 11]) := by rfl
theorem step2 : step par env s1 b2 = .ok (s2, [r1], [10, 11]) := by rfl
theorem step3 : step par env s2 b3 = .ok (s3, [], []) := by rfl
theorem ran : run par bs s0 = .ok s3 := by rfl
/-- A block that guarantees a report on core 0 while the one there becomes available. -/
def r2' : Report := { r2 with core := 0, auth := 31 }
def b2' : Block Nat := { b2 with guarantees := [⟨r2', 5, [⟨0, 10⟩, ⟨1, 11⟩]⟩] }
theorem step2' : step par env s1 b2' = .ok ({ s2 with pending := [some ⟨r2', 5⟩, none], pools := [[60, 61], [70, 71]] }, [r1], [10, 11]) := by rfl
/-- A chain from an empty history. -/
def e0 : St := { s0 with hist := [] }
def es : List (Env Nat × Block Nat) := [(env, { b1 with guarantees := [] }), (env, b3), (env, { b3 with header := 103, parentRoot := 10, disputes := none' })]
def e3 : St := { pending := [none, none], hist := [⟨102, 3, 10, []⟩, ⟨103, 3, 0, []⟩], pools := [[60, 60], [70, 70]], judged := ⟨[], [], [1002], []⟩ }
theorem eran : run par es e0 = .ok e3 := by rfl
theorem shape : Spec.Shape par s0 where
  pending := rfl
  cores := fun c p h => by
    have : ∀ o ∈ s0.pending, o = none := by decide
    have := this _ (List.mem_of_getElem? h); cases this
  hist := by decide
  pools := rfl
  pool := by decide
end Ex

/-! ## Availability -/

/-- **C28**: a block releases exactly the reports pending at the cores assured by more than two thirds of the
validators, in the order of the cores. -/
theorem C28_available {P : Par} {E : Env σ} {s s' : St} {b : Block σ} {av : List Report} {keys : List Nat} (h : step P E s b = .ok (s', av, keys)) :
    ∃ cs, Spec.Increasing cs ∧ (∀ c, c ∈ cs ↔ c < P.C ∧ Spec.Supermajority P.V (Spec.assurers b.assurances c).length) ∧
      av.map some = cs.map fun c => (s.pending[c]?.bind id).map Pending.report := by
  obtain ⟨cs, hd⟩ := step_done h
  refine ⟨cs, available_up hd.cores, mem_available hd.cores, ?_⟩
  rw [collect_ok hd.collected]
  refine List.map_congr_left fun c hc => ?_
  obtain ⟨p, hp, _⟩ := hd.collected_some hc
  have h1 : s.pending[c]? = some (some p) := removeAll_at hp
  rw [h1, show (dagger E s b)[c]? = some (some p) from hp]

example : ∃ cs, Spec.Increasing cs ∧ [Ex.r1].map some = cs.map fun c => (Ex.s1.pending[c]?.bind id).map Pending.report := by
  obtain ⟨cs, h1, _, h2⟩ := C28_available Ex.step2; exact ⟨cs, h1, h2⟩

/-- **C28**: a report is released exactly when it is pending at a core assured by more than two thirds. -/
theorem C28_released {P : Par} {E : Env σ} {s s' : St} {b : Block σ} {av : List Report} {keys : List Nat} (h : step P E s b = .ok (s', av, keys)) (r : Report) :
    r ∈ av ↔ ∃ c p, Spec.At s.pending c p ∧ p.report = r ∧ c < P.C ∧ Spec.Supermajority P.V (Spec.assurers b.assurances c).length := by
  obtain ⟨cs, hd⟩ := step_done h
  constructor
  · intro hr
    obtain ⟨c, hc, p, hp, e⟩ := hd.of_collected hr
    exact ⟨c, p, removeAll_at hp, e, (mem_available hd.cores c).1 hc⟩
  · rintro ⟨c, p, hp, e, hq⟩
    obtain ⟨p', hp', hr⟩ := hd.collected_some ((mem_available hd.cores c).2 hq)
    have := removeAll_at hp'
    unfold Spec.At at hp this
    rw [hp] at this
    injection this with this; injection this with this
    rw [← this, e] at hr
    exact hr

example : Ex.r1 ∈ [Ex.r1] ∧ Spec.assurers Ex.b2.assurances 0 = [0, 1, 2] := ⟨(C28_released Ex.step2 Ex.r1).2 ⟨0, ⟨Ex.r1, 2⟩, rfl, rfl, by decide, by unfold Spec.Supermajority; decide⟩, by decide⟩

/-- **C28**: each validator counts once, is active, and signed the bits with the parent of the block. -/
theorem C28_once {P : Par} {E : Env σ} {s s' : St} {b : Block σ} {av : List Report} {keys : List Nat} (h : step P E s b = .ok (s', av, keys)) (c : Nat) :
    (Spec.assurers b.assurances c).Nodup ∧ ∀ i ∈ Spec.assurers b.assurances c, ∃ a ∈ b.assurances, a.voter = i ∧ a.bits[c]? = some true ∧ a.parent = b.parent ∧
      ∃ key, E.judge.active[i]? = some key ∧ E.verAvail key b.parent a.bits a.sig = true := by
  obtain ⟨cs, hd⟩ := step_done h
  exact ⟨(increasing_iff.1 (hd.assurers_up c)).2, fun i hi => hd.assurer hi⟩

example : (Spec.assurers Ex.b2.assurances 0).Nodup := (C28_once Ex.step2 0).1

/-- **C28**: two available quorums of the same validator set, in blocks of any chain or fork and for any
cores, share more than a third of the validators. -/
theorem C28_quorum {P : Par} {E1 E2 : Env σ} {s1 s1' s2 s2' : St} {b1 b2 : Block σ} {av1 av2 : List Report} {keys1 keys2 : List Nat}
    (h1 : step P E1 s1 b1 = .ok (s1', av1, keys1)) (h2 : step P E2 s2 b2 = .ok (s2', av2, keys2)) (he : E1.judge.active = E2.judge.active)
    (hV : E1.judge.active.length = P.V) {c1 c2 : Nat} (q1 : Spec.Supermajority P.V (Spec.assurers b1.assurances c1).length)
    (q2 : Spec.Supermajority P.V (Spec.assurers b2.assurances c2).length) :
    ∃ l : List Nat, l.Nodup ∧ (∀ i ∈ l, i ∈ Spec.assurers b1.assurances c1 ∧ i ∈ Spec.assurers b2.assurances c2) ∧ P.V < 3 * l.length := by
  obtain ⟨cs1, d1⟩ := step_done h1
  obtain ⟨cs2, d2⟩ := step_done h2
  have n1 := (increasing_iff.1 (d1.assurers_up c1)).2
  have n2 := (increasing_iff.1 (d2.assurers_up c2)).2
  have := Judge.overlap (n := P.V) n1 n2 (fun i hi => by rw [← hV]; exact d1.assurers_lt hi) (fun i hi => by rw [← hV, he]; exact d2.assurers_lt hi)
  refine ⟨(Spec.assurers b1.assurances c1).filter fun x => decide (x ∈ Spec.assurers b2.assurances c2), n1.filter _, fun i hi => ?_, ?_⟩
  · obtain ⟨h1, h2⟩ := List.mem_filter.1 hi
    exact ⟨h1, by simpa using h2⟩
  · unfold Spec.Supermajority at q1 q2
    omega

example : ∃ l : List Nat, l.Nodup ∧ (∀ i ∈ l, i ∈ [0, 1, 2] ∧ i ∈ [0, 1, 2]) ∧ 3 < 3 * l.length :=
  C28_quorum (c1 := 0) (c2 := 0) Ex.step2 Ex.step2 rfl rfl (by unfold Spec.Supermajority; decide) (by unfold Spec.Supermajority; decide)

/-- **C28**: assurances are included exactly when they come from distinct validators in order, each naming the
parent, signed by the active validator it names, and only for cores that have a pending report after judgements. -/
theorem C28_accept_iff {E : Env σ} {parent : Nat} {pend : List (Option Pending)} {xt : List (Assurance σ)} :
    validateAssurances E parent pend xt = .ok () ↔ (Spec.Increasing (xt.map Assurance.voter) ∧ ∀ a ∈ xt, Spec.AssuranceOk E parent pend a) := validateAssurances_iff

example : Spec.Increasing (Ex.b2.assurances.map Assurance.voter) := ((C28_accept_iff (E := Ex.env) (parent := 100) (pend := Ex.s1.pending)).1 (by rfl)).1

/-- **C28**: once the assurances are valid and have a bit per core, taking the available reports cannot fail:
no report is missing and no index is out of bounds. -/
theorem C28_total {P : Par} {E : Env σ} {b : Block σ} {pend : List (Option Pending)} (hv : validateAssurances E b.parent pend b.assurances = .ok ())
    (hl : ∀ a ∈ b.assurances, a.bits.length ≤ P.C) : ∃ out, clearAvailable P E b pend = .ok out := by
  unfold clearAvailable
  rw [hv]
  dsimp only
  obtain ⟨cs, hc⟩ := (available_some (P := P)).2 hl
  rw [hc]
  dsimp only
  have : ∀ c ∈ cs, ∃ p, pend[c]? = some (some p) := by
    intro c hm
    have hq := ((mem_available hc c).1 hm).2
    unfold Spec.Supermajority at hq
    cases e : Spec.assurers b.assurances c with
    | nil => rw [e] at hq; simp at hq
    | cons i l =>
      have hi : i ∈ Spec.assurers b.assurances c := by rw [e]; exact List.mem_cons_self
      unfold Spec.assurers at hi
      obtain ⟨a, ha, _⟩ := List.mem_map.1 hi
      obtain ⟨ha, hb⟩ := List.mem_filter.1 ha
      exact ((validateAssurances_iff.1 hv).2 a ha).2.2 c (by simpa using hb)
  obtain ⟨rs, hr⟩ := collect_some this
  rw [hr]
  exact ⟨_, rfl⟩

example : ∃ out, clearAvailable Ex.par Ex.env Ex.b2 Ex.s1.pending = .ok out := C28_total (by rfl) (by decide)

/-- **C28**, **C29**: with a bit and a pending place per core and an assigned core per guarantor key, a block is
accepted or refused: no index is out of bounds and no available report is missing. -/
theorem C28_no_panic {P : Par} {E : Env σ} {s : St} {b : Block σ} (hs : s.pending.length = P.C) (hl : ∀ a ∈ b.assurances, a.bits.length ≤ P.C)
    (h1 : E.current.keys.length ≤ E.current.cores.length) (h2 : E.previous.keys.length ≤ E.previous.cores.length) :
    step P E s b ≠ .error .panic ∧ step P E s b ≠ .error .missing := by
  change Sane (step P E s b)
  unfold step
  split
  · exact sane_of (by decide) (by decide)
  dsimp only
  split
  · rename_i e he
    unfold eliminate at he
    split at he
    · injection he with he; rw [← he]; exact sane_of (by decide) (by decide)
    · cases he
  · rename_i pend1 he
    have hp : pend1.length = P.C := by
      unfold eliminate at he
      split at he
      · cases he
      · injection he with he
        rw [← he, ← hs]
        exact removeAll_length (hash := E.hash)
    split
    · rename_i e hc
      have hv := validateAssurances_sane (E := E) (parent := b.parent) (pend := pend1) (xt := b.assurances) (fun a ha => by rw [hp]; exact hl a ha)
      cases ev : validateAssurances E b.parent pend1 b.assurances with
      | ok u =>
        cases u
        obtain ⟨out, ho⟩ := C28_total ev hl
        rw [hc] at ho; cases ho
      | error x =>
        unfold clearAvailable at hc
        rw [ev] at hc
        injection hc with hc
        rw [ev, hc] at hv
        exact sane_err hv
    · rename_i pend2 av hc
      have hg := validateGuarantees_sane (X := { P, E, slot := b.slot, pend := pend2, pend0 := s.pending, pools := s.pools, hist := setRoot b.parentRoot s.hist, reports := b.guarantees.map Guarantee.report }) (gs := b.guarantees) h1 h2
      split
      · rename_i e; rw [e] at hg; exact sane_err hg
      · exact sane_ok

example : step Ex.par Ex.env Ex.s2 Ex.b2 ≠ .error .panic := (C28_no_panic rfl (by decide) (by decide) (by decide)).1

/-! ## Pending reports -/

/-- **C29**: along any chain every core has exactly one place, holding at most one report, which is for that core. -/
theorem C29_one_per_core {P : Par} {bs : List (Env σ × Block σ)} {s s' : St} (h : run P bs s = .ok s') (hh : P.histLen ≠ 0) (hp : P.poolLen ≠ 0)
    (hs : Spec.Shape P s) : s'.pending.length = P.C ∧ ∀ c p, Spec.At s'.pending c p → c < P.C ∧ p.report.core = c ∧ ∀ q, Spec.At s'.pending c q → q = p := by
  have h' := run_shape h hh hp hs
  refine ⟨h'.pending, fun c p ha => ⟨?_, h'.cores c p ha, fun q hq => ?_⟩⟩
  · rw [← h'.pending]; exact (List.getElem?_eq_some_iff.1 ha).1
  · unfold Spec.At at ha hq
    rw [ha] at hq
    injection hq with hq; injection hq with hq
    exact hq.symm

example : Ex.s3.pending.length = 2 := (C29_one_per_core Ex.ran (by decide) (by decide) Ex.shape).1

/-- **C29**: a report is pending after a block exactly when it is guaranteed in it, with the block's slot, or
was pending and did not leave (a report sharing its hash with another one may also stay when judged). -/
theorem C29_pending {P : Par} {E : Env σ} {s s' : St} {b : Block σ} {av : List Report} {keys : List Nat} (h : step P E s b = .ok (s', av, keys))
    (hs : Spec.Shape P s) (c : Nat) (p : Pending) :
    (Spec.Guaranteed b c p.report ∧ p.slot = b.slot → Spec.At s'.pending c p) ∧
    (Spec.At s.pending c p → ¬ Spec.Leaves P E b c p → Spec.At s'.pending c p) ∧
    (Spec.At s'.pending c p → (Spec.Guaranteed b c p.report ∧ p.slot = b.slot) ∨
      (Spec.At s.pending c p ∧ (¬ Spec.Leaves P E b c p ∨ Spec.Collision E.hash p.report))) := by
  obtain ⟨cs, hd⟩ := step_done h
  refine ⟨fun hg => hd.at_iff.2 (Or.inl hg), fun ha hn => hd.at_iff.2 (Or.inr ?_), fun ha => ?_⟩
  · refine ddagger_at.2 ⟨removeAll_keep ha fun hm => hn (Or.inr (Or.inr (mem_condemned'.1 hm))), fun hc => hn (Or.inl ((mem_available hd.cores c).1 hc)), fun ht => hn (Or.inr (Or.inl ht))⟩
  · rcases hd.at_iff.1 ha with hg | ha
    · exact Or.inl hg
    · obtain ⟨h1, h2, h3⟩ := ddagger_at.1 ha
      have h0 := removeAll_at h1
      refine Or.inr ⟨h0, ?_⟩
      by_cases hc : E.hash p.report ∈ condemned E b
      · obtain ⟨c', p', hlt, hp', he⟩ := removeAll_left h1 hc
        refine Or.inr ⟨p'.report, fun e => ?_, he⟩
        have e1 := hs.cores c' p' hp'
        have e2 := hs.cores c p h0
        rw [e] at e1; omega
      · refine Or.inl fun hl => ?_
        rcases hl with hl | hl | hl
        · exact h2 ((mem_available hd.cores c).2 hl)
        · exact h3 hl
        · exact hc (mem_condemned'.2 hl)

example : Spec.At Ex.s2.pending 1 ⟨Ex.r2, 5⟩ :=
  (C29_pending Ex.step2 (run_shape (bs := [(Ex.env, Ex.b1)]) (by rfl : run Ex.par _ Ex.s0 = .ok Ex.s1) (by decide) (by decide) Ex.shape) 1 ⟨Ex.r2, 5⟩).1
    ⟨⟨_, List.mem_cons_self, rfl, rfl⟩, rfl⟩

/-- **C29**: a guarantee is never placed over a live report: what was pending on its core left in the same block. -/
theorem C29_never_over {P : Par} {E : Env σ} {s s' : St} {b : Block σ} {av : List Report} {keys : List Nat} (h : step P E s b = .ok (s', av, keys))
    {c : Nat} {r : Report} (hg : Spec.Guaranteed b c r) {p : Pending} (hp : Spec.At s.pending c p) : Spec.Leaves P E b c p := by
  obtain ⟨cs, hd⟩ := step_done h
  obtain ⟨g, hg, e, ec⟩ := hg
  refine Classical.byContradiction fun hn => ?_
  have hf := hd.free hg
  rw [e, ec] at hf
  have : Spec.At (ddagger P E s b cs) c p :=
    ddagger_at.2 ⟨removeAll_keep hp fun hm => hn (Or.inr (Or.inr (mem_condemned'.1 hm))), fun hc => hn (Or.inl ((mem_available hd.cores c).1 hc)), fun ht => hn (Or.inr (Or.inl ht))⟩
  unfold Spec.At at this
  rw [hf] at this; cases this

example : Spec.Leaves Ex.par Ex.env Ex.b2' 0 ⟨Ex.r1, 2⟩ := C29_never_over Ex.step2' (r := Ex.r2') ⟨_, List.mem_cons_self, rfl, rfl⟩ (p := ⟨Ex.r1, 2⟩) rfl

/-- **C29**: over a chain a pending report stays in its place until a block in which it becomes available, times
out or is judged against. -/
theorem C29_leaves {P : Par} {bs : List (Env σ × Block σ)} {s s' : St} (h : run P bs s = .ok s') {c : Nat} {p : Pending} (hp : Spec.At s.pending c p) :
    Spec.At s'.pending c p ∨ ∃ (i : Nat) (eb : Env σ × Block σ) (t : St), bs[i]? = some eb ∧ run P (bs.take i) s = .ok t ∧ Spec.At t.pending c p ∧ Spec.Leaves P eb.1 eb.2 c p := by
  induction bs generalizing s with
  | nil => unfold run at h; injection h with h; rw [← h]; exact Or.inl hp
  | cons b bs ih =>
    unfold run at h
    split at h
    · cases h
    · rename_i s1 out e
      by_cases hl : Spec.Leaves P b.1 b.2 c p
      · exact Or.inr ⟨0, b, s, rfl, rfl, hp, hl⟩
      · obtain ⟨cs, hd⟩ := step_done e
        have h1 : Spec.At s1.pending c p := hd.at_iff.2 (Or.inr (ddagger_at.2 ⟨removeAll_keep hp fun hm => hl (Or.inr (Or.inr (mem_condemned'.1 hm))),
          fun hc => hl (Or.inl ((mem_available hd.cores c).1 hc)), fun ht => hl (Or.inr (Or.inl ht))⟩))
        rcases ih h h1 with h2 | ⟨i, eb, t, h2, h3, h4⟩
        · exact Or.inl h2
        · exact Or.inr ⟨i + 1, eb, t, h2, by rw [List.take_succ_cons]; unfold run; rw [e]; exact h3, h4⟩

example : ∃ (i : Nat) (eb : Env Nat × Block Nat) (t : St), [(Ex.env, Ex.b3)][i]? = some eb ∧ run Ex.par ([(Ex.env, Ex.b3)].take i) Ex.s2 = .ok t ∧
    Spec.At t.pending 1 ⟨Ex.r2, 5⟩ ∧ Spec.Leaves Ex.par eb.1 eb.2 1 ⟨Ex.r2, 5⟩ := by
  rcases C29_leaves (P := Ex.par) (bs := [(Ex.env, Ex.b3)]) (s' := Ex.s3) (by rfl) (s := Ex.s2) (c := 1) (p := ⟨Ex.r2, 5⟩) rfl with h | h
  · exact absurd h (by simp [Spec.At, Ex.s3])
  · exact h

/-- **C29**: a report judged bad or wonky in a block is not made available in it (unless another report has its hash). -/
theorem C29_judged {P : Par} {E : Env σ} {s s' : St} {b : Block σ} {av : List Report} {keys : List Nat} (h : step P E s b = .ok (s', av, keys))
    (hs : Spec.Shape P s) {r : Report} (hc : Spec.Condemned E.judge.V b.disputes (E.hash r)) : r ∉ av ∨ Spec.Collision E.hash r := by
  obtain ⟨cs, hd⟩ := step_done h
  refine Classical.byContradiction fun hn => ?_
  obtain ⟨hn1, hn2⟩ := not_or.1 hn
  obtain ⟨c, _, p, hp, e⟩ := hd.of_collected (Classical.not_not.1 hn1)
  rw [← e] at hc
  obtain ⟨c', p', hlt, hp', he⟩ := removeAll_left hp (mem_condemned'.2 hc)
  refine hn2 ⟨p'.report, fun e' => ?_, by rw [he, e]⟩
  have e1 := hs.cores c' p' hp'
  have e2 := hs.cores c p (removeAll_at hp)
  rw [e', ← e] at e1; omega

example : Ex.r2 ∉ ([] : List Report) ∨ Spec.Collision Ex.env.hash Ex.r2 :=
  C29_judged Ex.step3 (run_shape (bs := [(Ex.env, Ex.b1), (Ex.env, Ex.b2)]) (by rfl : run Ex.par _ Ex.s0 = .ok Ex.s2) (by decide) (by decide) Ex.shape)
    ⟨_, List.mem_cons_self, rfl, Or.inr (by decide)⟩

/-- **C29**: along a chain with increasing slots no report stays pending for `timeout` slots or more. -/
theorem C29_timeout {P : Par} {bs : List (Env σ × Block σ)} {s s' : St} {slot : Nat} (h : run P bs s = .ok s') (ht : 0 < P.timeout) (hu : Spec.SlotsUp slot bs)
    (hs : ∀ c p, Spec.At s.pending c p → p.slot ≤ slot ∧ slot < p.slot + P.timeout) :
    ∀ c p, Spec.At s'.pending c p → p.slot ≤ Spec.lastSlot slot bs ∧ Spec.lastSlot slot bs < p.slot + P.timeout := by
  induction bs generalizing s slot with
  | nil => unfold run at h; injection h with h; rw [← h]; exact hs
  | cons b bs ih =>
    unfold run at h
    split at h
    · cases h
    · rename_i s1 out e
      unfold Spec.SlotsUp at hu
      rw [List.map_cons] at hu
      obtain ⟨h1, h2⟩ := List.pairwise_cons.1 hu
      have hlt := h1 _ List.mem_cons_self
      have el : Spec.lastSlot slot (b :: bs) = Spec.lastSlot b.2.slot bs := by
        unfold Spec.lastSlot
        rw [List.map_cons, List.getLast?_cons]; rfl
      rw [el]
      refine ih h h2 fun c p ha => ?_
      obtain ⟨cs, hd⟩ := step_done e
      rcases hd.at_iff.1 ha with ⟨_, e⟩ | ha
      · omega
      · obtain ⟨h3, _, h4⟩ := ddagger_at.1 ha
        have := hs c p (removeAll_at h3)
        omega

example : ∀ c p, Spec.At Ex.s2.pending c p → p.slot ≤ 5 ∧ 5 < p.slot + 5 :=
  C29_timeout (P := Ex.par) (bs := [(Ex.env, Ex.b1), (Ex.env, Ex.b2)]) (s := Ex.s0) (s' := Ex.s2) (slot := 0) (by rfl) (by decide) (by simp [Spec.SlotsUp, Ex.b1, Ex.b2])
    (fun c p h => by have := Ex.shape.cores c p h; have : ∀ o ∈ Ex.s0.pending, o = none := by decide
                     have := this _ (List.mem_of_getElem? h); cases this)

/-! ## Authorizer pools -/

/-- **C37**: the pool of each core after a block: the authorizer used by the core's guarantee, if any, is removed
once, the queue's entry for the slot is appended, and the newest `poolLen` are kept. -/
theorem C37_step {P : Par} {E : Env σ} {s s' : St} {b : Block σ} {av : List Report} {keys : List Nat} (h : step P E s b = .ok (s', av, keys)) (hp : P.poolLen ≠ 0)
    (hs : Spec.Shape P s) {c : Nat} {pool : List Nat} (hc : s.pools[c]? = some pool) :
    (∀ g ∈ b.guarantees, g.report.core = c → g.report.auth ∈ pool ∧
      s'.pools[c]? = some (Spec.lastN P.poolLen (pool.erase g.report.auth ++ ((E.queues[c]?).bind fun q => q[b.slot % P.queueLen]?).toList))) ∧
    ((∀ g ∈ b.guarantees, g.report.core ≠ c) →
      s'.pools[c]? = some (Spec.lastN P.poolLen (pool ++ ((E.queues[c]?).bind fun q => q[b.slot % P.queueLen]?).toList))) := by
  obtain ⟨cs, hd⟩ := step_done h
  have e : s'.pools[c]? = some (Spec.lastN P.poolLen (unused b.guarantees c pool ++ ((E.queues[c]?).bind fun q => q[b.slot % P.queueLen]?).toList)) := by
    rw [hd.pools, nextPools_get, hc, Option.map_some, Nat.zero_add, nextPool_eq hp (hs.pool pool (List.mem_of_getElem? hc))]
    rfl
  constructor
  · intro g hg ec
    rw [e, unused_some (increasing_iff.1 hd.cores_up).2 hg ec]
    obtain ⟨q, hq, hm⟩ := (checkReport_facts (hd.checked hg)).2.1
    change s.pools[g.report.core]? = some q at hq
    rw [ec, hc] at hq
    injection hq with hq
    exact ⟨by rw [hq]; exact hm, rfl⟩
  · intro hn
    rw [e, unused_none hn]

example : Ex.s1.pools[0]? = some [31, 60] ∧ Ex.s1.pools[1]? = some [40, 70] :=
  ⟨((C37_step Ex.step1 (by decide) Ex.shape (c := 0) rfl).1 _ List.mem_cons_self rfl).2, (C37_step Ex.step1 (by decide) Ex.shape (c := 1) rfl).2 (by decide)⟩

/-- **C37**: along any chain there is one pool per core and none holds more than `poolLen` authorizers. -/
theorem C37_bounded {P : Par} {bs : List (Env σ × Block σ)} {s s' : St} (h : run P bs s = .ok s') (hh : P.histLen ≠ 0) (hp : P.poolLen ≠ 0)
    (hs : Spec.Shape P s) : s'.pools.length = P.C ∧ ∀ pool ∈ s'.pools, pool.length ≤ P.poolLen := ⟨(run_shape h hh hp hs).pools, (run_shape h hh hp hs).pool⟩

example : ∀ pool ∈ Ex.s3.pools, pool.length ≤ 2 := (C37_bounded Ex.ran (by decide) (by decide) Ex.shape).2

theorem queuedFor_cons {P : Par} {b : Env σ × Block σ} {bs : List (Env σ × Block σ)} {c : Nat} :
    Spec.queuedFor P (b :: bs) c = ((b.1.queues[c]?).bind fun q => q[b.2.slot % P.queueLen]?).toList ++ Spec.queuedFor P bs c := by
  unfold Spec.queuedFor
  rw [List.filterMap_cons]
  cases (b.1.queues[c]?).bind fun q => q[b.2.slot % P.queueLen]? <;> rfl

/-- **C37**: a core unused during a chain keeps the newest of its pool followed by everything queued for it. -/
theorem C37_idle {P : Par} {bs : List (Env σ × Block σ)} {s s' : St} (h : run P bs s = .ok s') (hh : P.histLen ≠ 0) (hp : P.poolLen ≠ 0) (hs : Spec.Shape P s)
    {c : Nat} {pool : List Nat} (hc : s.pools[c]? = some pool) (hn : ∀ b ∈ bs, ∀ g ∈ b.2.guarantees, g.report.core ≠ c) :
    s'.pools[c]? = some (Spec.lastN P.poolLen (pool ++ Spec.queuedFor P bs c)) := by
  induction bs generalizing s pool with
  | nil =>
    unfold run at h; injection h with h
    rw [← h, hc, Spec.queuedFor, List.filterMap_nil, List.append_nil, lastN_of_le (hs.pool pool (List.mem_of_getElem? hc))]
  | cons b bs ih =>
    unfold run at h
    split at h
    · cases h
    · rename_i s1 out e
      obtain ⟨cs, hd⟩ := step_done e
      rw [ih h (hd.shape hh hp hs) ((C37_step e hp hs hc).2 (hn b List.mem_cons_self)) (fun b hb => hn b (List.mem_cons_of_mem _ hb)),
        lastN_append, List.append_assoc, queuedFor_cons]

example : Ex.s1.pools[1]? = some (Spec.lastN 2 ([40] ++ [70])) :=
  C37_idle (bs := [(Ex.env, Ex.b1)]) (by rfl : run Ex.par _ Ex.s0 = .ok Ex.s1) (by decide) (by decide) Ex.shape rfl (by decide)

/-- **C37**: over any chain a pool contains only what it held and what was queued, in that order. -/
theorem C37_sublist {P : Par} {bs : List (Env σ × Block σ)} {s s' : St} (h : run P bs s = .ok s') (hh : P.histLen ≠ 0) (hp : P.poolLen ≠ 0) (hs : Spec.Shape P s)
    {c : Nat} {pool : List Nat} (hc : s.pools[c]? = some pool) : ∃ pool', s'.pools[c]? = some pool' ∧ pool'.Sublist (pool ++ Spec.queuedFor P bs c) := by
  induction bs generalizing s pool with
  | nil =>
    unfold run at h; injection h with h
    exact ⟨pool, by rw [← h]; exact hc, by simp [Spec.queuedFor]⟩
  | cons b bs ih =>
    unfold run at h
    split at h
    · cases h
    · rename_i s1 out e
      obtain ⟨cs, hd⟩ := step_done e
      have hs1 := C37_step e hp hs hc
      have key : ∃ q, s1.pools[c]? = some q ∧ q.Sublist (pool ++ ((b.1.queues[c]?).bind fun q => q[b.2.slot % P.queueLen]?).toList) := by
        by_cases hg : ∃ g ∈ b.2.guarantees, g.report.core = c
        · obtain ⟨g, hg, ec⟩ := hg
          exact ⟨_, (hs1.1 g hg ec).2, (List.drop_sublist _ _).trans (List.erase_sublist.append_right _)⟩
        · exact ⟨_, hs1.2 fun g hg' ec => hg ⟨g, hg', ec⟩, List.drop_sublist _ _⟩
      obtain ⟨q, hq, hsub⟩ := key
      obtain ⟨q', hq', hsub'⟩ := ih h (hd.shape hh hp hs) hq
      refine ⟨q', hq', hsub'.trans ?_⟩
      rw [queuedFor_cons, ← List.append_assoc]
      exact hsub.append_right _

example : ∃ pool', Ex.s3.pools[0]? = some pool' ∧ pool'.Sublist ([30, 31] ++ [60, 61, 60]) := C37_sublist Ex.ran (by decide) (by decide) Ex.shape rfl

/-- **C37**: the entry queued for the slot of a block is the newest of the pool after it. -/
theorem C37_newest {P : Par} {E : Env σ} {s s' : St} {b : Block σ} {av : List Report} {keys : List Nat} (h : step P E s b = .ok (s', av, keys)) (hp : P.poolLen ≠ 0)
    (hs : Spec.Shape P s) {c a : Nat} {pool : List Nat} (hc : s.pools[c]? = some pool) (ha : ((E.queues[c]?).bind fun q => q[b.slot % P.queueLen]?) = some a) :
    ∃ pool', s'.pools[c]? = some (pool' ++ [a]) := by
  have key : ∃ q : List Nat, s'.pools[c]? = some (Spec.lastN P.poolLen (q ++ [a])) := by
    have h1 := C37_step h hp hs hc
    rw [ha] at h1
    by_cases hg : ∃ g ∈ b.guarantees, g.report.core = c
    · obtain ⟨g, hg, ec⟩ := hg
      exact ⟨_, (h1.1 g hg ec).2⟩
    · exact ⟨_, h1.2 fun g hg' ec => hg ⟨g, hg', ec⟩⟩
  obtain ⟨q, hq⟩ := key
  refine ⟨q.drop ((q ++ [a]).length - P.poolLen), ?_⟩
  rw [hq]
  unfold Spec.lastN
  rw [List.drop_append_of_le_length]
  rw [List.length_append, List.length_singleton]; omega

example : ∃ pool', Ex.s1.pools[0]? = some (pool' ++ [60]) := C37_newest Ex.step1 (by decide) Ex.shape (pool := [30, 31]) rfl rfl

theorem count_lastN {a n : Nat} {l : List Nat} : (Spec.lastN n l).count a ≤ l.count a := (List.drop_sublist _ _).count_le a

theorem uses_block {xt : List (Guarantee σ)} {c a : Nat} (hn : (xt.map fun g => g.report.core).Nodup) :
    (xt.filter fun g => g.report.core = c ∧ g.report.auth = a).length ≤ 1 := by
  have h1 : ((xt.filter fun g => g.report.core = c ∧ g.report.auth = a).map fun g => g.report.core).Nodup :=
    hn.sublist (List.Sublist.map _ List.filter_sublist)
  have h2 : ∀ x ∈ (xt.filter fun g => g.report.core = c ∧ g.report.auth = a).map fun g => g.report.core, x ∈ [c] := by
    intro x hx
    obtain ⟨g, hg, e⟩ := List.mem_map.1 hx
    have := (List.mem_filter.1 hg).2
    simp only [decide_eq_true_eq] at this
    rw [← e, this.1]; exact List.mem_cons_self
  have := h1.length_le_of_subset h2
  simpa using this

/-- **C37**: a use consumes an entry: over any chain an authorizer is used by guarantees of a core at most as often
as it was in the pool or was queued, less what is left of it. -/
theorem C37_budget {P : Par} {bs : List (Env σ × Block σ)} {s s' : St} (h : run P bs s = .ok s') (hh : P.histLen ≠ 0) (hp : P.poolLen ≠ 0) (hs : Spec.Shape P s)
    {c : Nat} {pool : List Nat} (hc : s.pools[c]? = some pool) (a : Nat) :
    ∃ pool', s'.pools[c]? = some pool' ∧ pool'.count a + Spec.uses bs c a ≤ pool.count a + (Spec.queuedFor P bs c).count a := by
  induction bs generalizing s pool with
  | nil =>
    unfold run at h; injection h with h
    exact ⟨pool, by rw [← h]; exact hc, by simp [Spec.queuedFor, Spec.uses]⟩
  | cons b bs ih =>
    unfold run at h
    split at h
    · cases h
    · rename_i s1 out e
      obtain ⟨cs, hd⟩ := step_done e
      have hs1 := C37_step e hp hs hc
      have eu : Spec.uses (b :: bs) c a = (b.2.guarantees.filter fun g => g.report.core = c ∧ g.report.auth = a).length + Spec.uses bs c a := by
        unfold Spec.uses
        rw [List.flatMap_cons, List.filter_append, List.length_append]
      have hub := uses_block (c := c) (a := a) (increasing_iff.1 hd.cores_up).2
      have key : ∃ q, s1.pools[c]? = some q ∧ q.count a + (b.2.guarantees.filter fun g => g.report.core = c ∧ g.report.auth = a).length ≤
          pool.count a + (((b.1.queues[c]?).bind fun q => q[b.2.slot % P.queueLen]?).toList).count a := by
        by_cases hg : ∃ g ∈ b.2.guarantees, g.report.core = c
        · obtain ⟨g, hg, ec⟩ := hg
          obtain ⟨hm, hq⟩ := hs1.1 g hg ec
          refine ⟨_, hq, ?_⟩
          have h1 := count_lastN (a := a) (n := P.poolLen) (l := pool.erase g.report.auth ++ ((b.1.queues[c]?).bind fun q => q[b.2.slot % P.queueLen]?).toList)
          rw [List.count_append] at h1
          by_cases ea : g.report.auth = a
          · rw [ea] at h1 hm ⊢
            have h2 := List.count_erase_self (a := a) (l := pool)
            have h3 := List.count_pos_iff.2 hm
            omega
          · have h2 := List.count_erase_of_ne (l := pool) (fun e => ea e.symm : a ≠ g.report.auth)
            have h3 : (b.2.guarantees.filter fun g => g.report.core = c ∧ g.report.auth = a) = [] := by
              refine List.filter_eq_nil_iff.2 fun g' hg' hx => ?_
              simp only [decide_eq_true_eq] at hx
              have hn := (increasing_iff.1 hd.cores_up).2
              have : unused b.2.guarantees c [a] = [a].erase g'.report.auth := unused_some hn hg' hx.1
              rw [unused_some hn hg ec, hx.2] at this
              rw [List.erase_of_not_mem (by simpa using ea)] at this
              simp at this
            rw [h3]
            simp only [List.length_nil]
            omega
        · refine ⟨_, hs1.2 fun g hg' ec => hg ⟨g, hg', ec⟩, ?_⟩
          have h1 := count_lastN (a := a) (n := P.poolLen) (l := pool ++ ((b.1.queues[c]?).bind fun q => q[b.2.slot % P.queueLen]?).toList)
          rw [List.count_append] at h1
          have h3 : (b.2.guarantees.filter fun g => g.report.core = c ∧ g.report.auth = a) = [] := by
            refine List.filter_eq_nil_iff.2 fun g' hg' hx => ?_
            simp only [decide_eq_true_eq] at hx
            exact hg ⟨g', hg', hx.1⟩
          rw [h3]
          simp only [List.length_nil]
          omega
      obtain ⟨q, hq, hle⟩ := key
      obtain ⟨q', hq', hle'⟩ := ih h (hd.shape hh hp hs) hq
      refine ⟨q', hq', ?_⟩
      rw [eu, queuedFor_cons, List.count_append]
      omega

example : ∃ pool', Ex.s3.pools[0]? = some pool' ∧ pool'.count 30 + Spec.uses Ex.bs 0 30 ≤ [30, 31].count 30 + [60, 61, 60].count 30 :=
  C37_budget Ex.ran (by decide) (by decide) Ex.shape rfl 30

/-! ## Block history -/

/-- **C38**: after any chain of blocks from an empty history, the history is that of the last `histLen` blocks in
order: header hash, belt root and packages (sorted) of each block, and as state root the prior root announced by
its successor (nothing yet for the newest). -/
theorem C38_history {P : Par} {bs : List (Env σ × Block σ)} {s s' : St} (h : run P bs s = .ok s') (hh : P.histLen ≠ 0) (h0 : s.hist = []) :
    s'.hist.length = min P.histLen bs.length ∧
    ∀ (i : Nat) (e : Hist), s'.hist[i]? = some e → ∃ b, bs[bs.length - s'.hist.length + i]? = some b ∧ e.header = b.2.header ∧ e.mmr = b.1.mmr ∧
      e.root = (bs[bs.length - s'.hist.length + i + 1]?.map fun c => c.2.parentRoot).getD 0 ∧
      e.packages.Perm (b.2.guarantees.map fun g => (g.report.pkg, g.report.seg)) ∧
      e.packages.Pairwise fun a b => a.1 < b.1 ∨ (a.1 = b.1 ∧ a.2 ≤ b.2) := by
  have hr := run_hist h hh (by rw [h0]; exact Nat.zero_le _)
  rw [h0] at hr
  have hl : s'.hist.length = min P.histLen bs.length := by rw [hr, lastN_length, link_length]; simp
  refine ⟨hl, fun i e he => ?_⟩
  have hi : i < s'.hist.length := (List.getElem?_eq_some_iff.1 he).1
  have ed : (link bs []).length - P.histLen = bs.length - s'.hist.length := by rw [link_length, hl]; simp; omega
  rw [hr] at he
  unfold Spec.lastN at he
  rw [List.getElem?_drop, ed, link_get] at he
  obtain ⟨b, hb, e'⟩ := Option.map_eq_some_iff.1 he
  refine ⟨b, hb, ?_⟩
  rw [← e']
  refine ⟨rfl, rfl, rfl, sortPairs_perm, sortPairs_sorted.imp ?_⟩
  intro a b hab
  unfold pairLe at hab
  simpa using hab

example : Ex.e3.hist.length = min 2 3 := (C38_history Ex.eran (by decide) rfl).1

/-- **C38**: one block: the newest entry gets the announced prior state root, nothing else changes, the new entry
is appended and the oldest goes when there are too many. -/
theorem C38_step {P : Par} {E : Env σ} {s s' : St} {b : Block σ} {av : List Report} {keys : List Nat} (h : step P E s b = .ok (s', av, keys)) (hh : P.histLen ≠ 0)
    (hl : s.hist.length ≤ P.histLen) : ∃ e : Hist, e.header = b.header ∧ e.mmr = E.mmr ∧ e.root = 0 ∧
      e.packages.Perm (b.guarantees.map fun g => (g.report.pkg, g.report.seg)) ∧
      (s.hist = [] → s'.hist = [e]) ∧ ∀ l f, s.hist = l ++ [f] → s'.hist = Spec.lastN P.histLen (l ++ [{ f with root := b.parentRoot }, e]) := by
  obtain ⟨cs, hd⟩ := step_done h
  have he := hd.hist_eq hh hl
  refine ⟨item E b, rfl, rfl, rfl, sortPairs_perm, fun h0 => ?_, fun l f hf => ?_⟩
  · rw [he, h0]
    exact lastN_of_le (by simp [setRoot]; omega)
  · rw [he, hf, setRoot_snoc, List.append_assoc]; rfl

example : ∃ e : Hist, Ex.s2.hist = Spec.lastN 2 [⟨99, 1, 7, []⟩, ⟨100, 3, 8, [(1, 51)]⟩, e] := by
  obtain ⟨e, _, _, _, _, _, h⟩ := C38_step Ex.step2 (by decide) (by decide)
  exact ⟨e, h [⟨99, 1, 7, []⟩] ⟨100, 3, 0, [(1, 51)]⟩ rfl⟩

/-- **C38**: from any history within the bound, the headers after a chain are the last of the old ones and the blocks'. -/
theorem C38_headers {P : Par} {bs : List (Env σ × Block σ)} {s s' : St} (h : run P bs s = .ok s') (hh : P.histLen ≠ 0) (hl : s.hist.length ≤ P.histLen) :
    s'.hist.map Hist.header = Spec.lastN P.histLen (s.hist.map Hist.header ++ bs.map fun b => b.2.header) := by
  rw [run_hist h hh hl, ← link_headers]
  unfold Spec.lastN
  rw [List.map_drop, List.length_map]

example : Ex.s3.hist.map Hist.header = Spec.lastN 2 [99, 100, 101, 102] := C38_headers Ex.ran (by decide) (by decide)

/-! ## No report twice -/

theorem mem_lastN {α : Type} {n : Nat} {l : List α} {x : α} : x ∈ Spec.lastN n l ↔ ∃ k, l.length - n ≤ k ∧ l[k]? = some x := by
  unfold Spec.lastN
  constructor
  · intro h
    obtain ⟨k, hk⟩ := List.getElem?_of_mem h
    rw [List.getElem?_drop] at hk
    exact ⟨_, Nat.le_add_right _ _, hk⟩
  · rintro ⟨k, hk, e⟩
    refine List.mem_of_getElem? (i := k - (l.length - n)) ?_
    rw [List.getElem?_drop, show l.length - n + (k - (l.length - n)) = k by omega]; exact e

/-- A package reported in one of the last `histLen` blocks is in the history. -/
theorem recent_of {P : Par} {bs : List (Env σ × Block σ)} {s s' : St} (h : run P bs s = .ok s') (hh : P.histLen ≠ 0) (hl : s.hist.length ≤ P.histLen)
    {i : Nat} {eb : Env σ × Block σ} (hi : bs[i]? = some eb) (hb : bs.length ≤ P.histLen + i) {g : Guarantee σ} (hg : g ∈ eb.2.guarantees) :
    ∃ m ∈ Spec.recent s'.hist, m.1 = g.report.pkg := by
  have hp : s'.hist.map Hist.packages = Spec.lastN P.histLen (s.hist.map Hist.packages ++ bs.map fun b => (item b.1 b.2).packages) := by
    rw [run_hist h hh hl, ← link_packages]
    unfold Spec.lastN
    rw [List.map_drop, List.length_map]
  have hm : (item eb.1 eb.2).packages ∈ s'.hist.map Hist.packages := by
    rw [hp, mem_lastN]
    refine ⟨s.hist.length + i, by simp; omega, ?_⟩
    rw [List.getElem?_append_right (by simp), List.length_map, Nat.add_sub_cancel_left, List.getElem?_map, hi]; rfl
  obtain ⟨e, he, ee⟩ := List.mem_map.1 hm
  refine ⟨(g.report.pkg, g.report.seg), List.mem_flatMap.2 ⟨e, he, ?_⟩, rfl⟩
  rw [ee]
  exact sortPairs_perm.mem_iff.2 (List.mem_map.2 ⟨g, hg, rfl⟩)

/-- The anchor of an accepted report is one of the last `histLen` headers. -/
theorem anchor_of {P : Par} {bs : List (Env σ × Block σ)} {s s1 s2 : St} (h : run P bs s = .ok s1) (hh : P.histLen ≠ 0) (hl : s.hist.length ≤ P.histLen)
    {eb : Env σ × Block σ} {av : List Report} {keys : List Nat} (hs : step P eb.1 s1 eb.2 = .ok (s2, av, keys)) {g : Guarantee σ} (hg : g ∈ eb.2.guarantees) :
    ∃ k, s.hist.length + bs.length - P.histLen ≤ k ∧ (s.hist.map Hist.header ++ bs.map fun b => b.2.header)[k]? = some g.report.anchor := by
  obtain ⟨cs, hd⟩ := step_done hs
  obtain ⟨e, he, _⟩ := (checkReport_facts (hd.checked hg)).2.2.1
  have h1 : e.header = g.report.anchor := by simpa using List.find?_some he
  have h2 : g.report.anchor ∈ (setRoot eb.2.parentRoot s1.hist).map Hist.header := List.mem_map.2 ⟨e, List.mem_of_find?_eq_some he, h1⟩
  rw [setRoot_headers, C38_headers h hh hl] at h2
  obtain ⟨k, hk, e⟩ := mem_lastN.1 h2
  exact ⟨k, by simpa using hk, e⟩

/-- **C45**: along any chain with distinct header hashes, no work package is reported twice with the same anchor:
so no report is placed twice, in whatever blocks and on whatever cores. -/
theorem C45_once {P : Par} {bs : List (Env σ × Block σ)} {s s' : St} (h : run P bs s = .ok s') (hh : P.histLen ≠ 0) (hl : s.hist.length ≤ P.histLen)
    (hn : (s.hist.map Hist.header ++ bs.map fun b => b.2.header).Nodup) {i j : Nat} (hij : i < j) {bi bj : Env σ × Block σ} (hi : bs[i]? = some bi) (hj : bs[j]? = some bj)
    {g g' : Guarantee σ} (hg : g ∈ bi.2.guarantees) (hg' : g' ∈ bj.2.guarantees) : ¬ (g.report.pkg = g'.report.pkg ∧ g.report.anchor = g'.report.anchor) := by
  rintro ⟨ep, ea⟩
  obtain ⟨si, si', avi, ki, ri, ti, _⟩ := run_at h hi
  obtain ⟨sj, sj', avj, kj, rj, tj, _⟩ := run_at h hj
  have li := (List.getElem?_eq_some_iff.1 hi).1
  have lj := (List.getElem?_eq_some_iff.1 hj).1
  have eti : (bs.take i).length = i := by rw [List.length_take]; omega
  have etj : (bs.take j).length = j := by rw [List.length_take]; omega
  by_cases hb : j ≤ P.histLen + i
  · obtain ⟨m, hm, e⟩ := recent_of rj hh hl (i := i) (eb := bi) (by rw [List.getElem?_take, if_pos hij]; exact hi) (by rw [etj]; exact hb) hg
    obtain ⟨cs, hd⟩ := step_done tj
    refine (checkReport_facts (hd.checked hg')).2.2.2 m ?_ (by rw [e, ep])
    change m ∈ Spec.recent (setRoot bj.2.parentRoot sj.hist)
    rw [setRoot_recent]; exact hm
  · obtain ⟨k, _, ek⟩ := anchor_of ri hh hl ti hg
    obtain ⟨k', hk', ek'⟩ := anchor_of rj hh hl tj hg'
    rw [eti, etj] at *
    have hk : k < s.hist.length + i := by
      have := (List.getElem?_eq_some_iff.1 ek).1
      simp at this; omega
    have hk2 : k' < s.hist.length + j := by
      have := (List.getElem?_eq_some_iff.1 ek').1
      simp at this; omega
    have pre : ∀ (n k x : Nat), (s.hist.map Hist.header ++ (bs.take n).map fun b => b.2.header)[k]? = some x →
        (s.hist.map Hist.header ++ bs.map fun b => b.2.header)[k]? = some x := by
      intro n k x hx
      have : s.hist.map Hist.header ++ (bs.map fun b => b.2.header) =
          (s.hist.map Hist.header ++ (bs.take n).map fun b => b.2.header) ++ (bs.drop n).map fun b => b.2.header := by
        rw [List.append_assoc, ← List.map_append, List.take_append_drop]
      rw [this, List.getElem?_append_left (List.getElem?_eq_some_iff.1 hx).1]; exact hx
    have p1 := pre _ _ _ ek
    have p2 := pre _ _ _ ek'
    rw [← ea] at p2
    have := (List.getElem?_inj (List.getElem?_eq_some_iff.1 p1).1 hn).1 (p1.trans p2.symm)
    omega

example : ¬ (Ex.r1.pkg = Ex.r2.pkg ∧ Ex.r1.anchor = Ex.r2.anchor) :=
  C45_once Ex.ran (by decide) (by decide) (by decide) (i := 0) (j := 1) (by decide) rfl rfl (g := ⟨Ex.r1, 1, [⟨0, 10⟩, ⟨1, 11⟩]⟩) (g' := ⟨Ex.r2, 3, [⟨0, 10⟩, ⟨1, 11⟩]⟩)
    List.mem_cons_self List.mem_cons_self

/-- **C45**: nor is a package reported, with any anchor, within `histLen` blocks of its last report, twice in one
block, while it is pending, or while it is known to accumulation. -/
theorem C45_package {P : Par} {bs : List (Env σ × Block σ)} {s s' : St} (h : run P bs s = .ok s') (hh : P.histLen ≠ 0) (hl : s.hist.length ≤ P.histLen)
    (hm : P.maxGas < 2 ^ 64 - 1) {j : Nat} {bj : Env σ × Block σ} (hj : bs[j]? = some bj) {g' : Guarantee σ} (hg' : g' ∈ bj.2.guarantees) :
    (∀ (i : Nat) bi g, i < j → j ≤ P.histLen + i → bs[i]? = some bi → g ∈ bi.2.guarantees → g.report.pkg ≠ g'.report.pkg) ∧
    (bj.2.guarantees.map fun g => g.report.pkg).Nodup ∧
    (∀ t, run P (bs.take j) s = .ok t → ∀ c p, Spec.At t.pending c p → p.report.pkg ≠ g'.report.pkg) ∧ g'.report.pkg ∉ bj.1.accumulated ∧ g'.report.pkg ∉ bj.1.queued := by
  obtain ⟨sj, sj', avj, kj, rj, tj, _⟩ := run_at h hj
  obtain ⟨cs, hd⟩ := step_done tj
  have hr := ((hd.keysOk hm).each g' hg').report
  refine ⟨fun i bi g hij hb hi hg ep => ?_, hd.pkgs, fun t ht c p hp => ?_, hr.newPipeline.1, hr.newPipeline.2.1⟩
  · have lj := (List.getElem?_eq_some_iff.1 hj).1
    obtain ⟨m, hm, e⟩ := recent_of rj hh hl (i := i) (eb := bi) (by rw [List.getElem?_take, if_pos hij]; exact hi) (by rw [List.length_take]; omega) hg
    exact hr.newRecent m (by rw [setRoot_recent]; exact hm) (by rw [e, ep])
  · rw [rj] at ht
    injection ht with ht
    rw [← ht] at hp
    exact hr.newPipeline.2.2 c p hp

example : Ex.r1.pkg ≠ Ex.r2.pkg :=
  (C45_package Ex.ran (by decide) (by decide) (by decide) (j := 1) rfl (g' := ⟨Ex.r2, 3, [⟨0, 10⟩, ⟨1, 11⟩]⟩) List.mem_cons_self).1 0 _ ⟨Ex.r1, 1, [⟨0, 10⟩, ⟨1, 11⟩]⟩
    (by decide) (by decide) rfl List.mem_cons_self

/-! ## Guarantees -/

/-- **C46**: the guarantees of a block are accepted exactly when they meet the specification. -/
theorem C46_accept_iff {P : Par} {E : Env σ} {now : Nat} {pend pend0 : List (Option Pending)} {pools : List (List Nat)} {hist : List Hist} {gs : List (Guarantee σ)}
    (hm : P.maxGas < 2 ^ 64 - 1) :
    (∃ keys, validateGuarantees { P, E, slot := now, pend, pend0, pools, hist, reports := gs.map Guarantee.report } gs = .ok keys) ↔
      Spec.GuaranteesOk P E now pend pend0 pools hist gs :=
  validateGuarantees_ok_iff (X := { P, E, slot := now, pend, pend0, pools, hist, reports := gs.map Guarantee.report }) hm rfl

example : Spec.GuaranteesOk Ex.par Ex.env 5 [none, none] Ex.s1.pending Ex.s1.pools (setRoot 8 Ex.s1.hist) Ex.b2.guarantees :=
  (C46_accept_iff (by decide)).1 ⟨[10, 11], rfl⟩

/-- **C46**: a report placed in a block was signed by at least two distinct validators assigned to its core in the
current or previous rotation whose keys are not banned; its authorizer is in the core's pool; it is anchored in a
remembered block with that block's state and belt roots; its dependencies are recent packages or in the block. -/
theorem C46_placed {P : Par} {E : Env σ} {s s' : St} {b : Block σ} {av : List Report} {keys : List Nat} (h : step P E s b = .ok (s', av, keys)) (hm : P.maxGas < 2 ^ 64 - 1)
    {g : Guarantee σ} (hg : g ∈ b.guarantees) :
    2 ≤ (g.creds.map Cred.voter).length ∧ (g.creds.map Cred.voter).Nodup ∧ (∀ c ∈ g.creds, Spec.CredOk P E b.slot g.report g.slot c) ∧
    (∃ pool, s.pools[g.report.core]? = some pool ∧ g.report.auth ∈ pool) ∧
    (∃ e ∈ setRoot b.parentRoot s.hist, e.header = g.report.anchor ∧ e.root = g.report.anchorRoot ∧ e.mmr = g.report.anchorMmr) ∧
    (∀ d ∈ g.report.prereqs, (∃ g' ∈ b.guarantees, g'.report.pkg = d) ∨ ∃ m ∈ Spec.recent s.hist, m.1 = d) ∧
    (∀ l ∈ g.report.lookup, (∃ g' ∈ b.guarantees, (g'.report.pkg, g'.report.seg) = l) ∨ l ∈ Spec.recent s.hist) := by
  obtain ⟨cs, hd⟩ := step_done h
  have ok := (hd.keysOk hm).each g hg
  refine ⟨?_, (increasing_iff.1 ok.up).2, ok.creds, ok.report.authorized, ?_, ?_, ?_⟩
  · rw [List.length_map]; rcases ok.count with e | e <;> omega
  · obtain ⟨e, he, h1, h2⟩ := ok.report.anchored
    exact ⟨e, List.mem_of_find?_eq_some he, by simpa using List.find?_some he, h1, h2⟩
  · intro d hd'
    rcases ok.report.prereqs d hd' with ⟨q, hq, e⟩ | h
    · obtain ⟨g', hg', eg⟩ := List.mem_map.1 hq
      exact Or.inl ⟨g', hg', by rw [eg]; exact e⟩
    · rw [setRoot_recent] at h; exact Or.inr h
  · intro l hl
    have hf := List.mem_of_find?_eq_some (ok.report.lookup l hl)
    rcases List.mem_append.1 hf with h | h
    · rw [setRoot_recent] at h; exact Or.inr h
    · obtain ⟨q, hq, e⟩ := List.mem_map.1 h
      obtain ⟨g', hg', eg⟩ := List.mem_map.1 hq
      exact Or.inl ⟨g', hg', by rw [eg]; exact e⟩

example : 2 ≤ ([⟨0, 10⟩, ⟨1, 11⟩].map (Cred.voter (σ := Nat))).length := (C46_placed Ex.step2 (by decide) (g := ⟨Ex.r2, 3, [⟨0, 10⟩, ⟨1, 11⟩]⟩) List.mem_cons_self).1

/-- **C46**: the reporters paid are exactly the signers, in order: one assigned key per credential. -/
theorem C46_reporters {P : Par} {E : Env σ} {s s' : St} {b : Block σ} {av : List Report} {keys : List Nat} (h : step P E s b = .ok (s', av, keys)) :
    keys.map some = b.guarantees.flatMap fun g => g.creds.map fun c =>
      (if b.slot / P.rotation = g.slot / P.rotation then E.current else E.previous).keys[c.voter]? := by
  obtain ⟨cs, hd⟩ := step_done h
  have hv := hd.guaranteed
  unfold validateGuarantees at hv
  by_cases c0 : b.guarantees.isEmpty = true
  · rw [if_pos c0] at hv
    injection hv with hv
    rw [← hv, List.isEmpty_iff.1 c0]; rfl
  rw [if_neg c0] at hv
  split at hv
  · cases hv
  split at hv
  · cases hv
  split at hv
  · cases hv
  clear hd c0 h
  have hc : ∀ (X : Ctx σ) (r : Report) (slot : Nat) (l : List (Cred σ)) (ks : List Nat), checkCreds X r slot l = .ok ks →
      ks.map some = l.map fun c => (assignment X slot).keys[c.voter]? := by
    intro X r slot l
    induction l with
    | nil => intro ks h; unfold checkCreds at h; injection h with h; rw [← h]; rfl
    | cons c l ih =>
      intro ks h
      unfold checkCreds at h
      split at h
      · cases h
      rename_i key e1
      split at h
      · cases h
      rename_i ks' e2
      injection h with h
      rw [← h, List.map_cons, List.map_cons, ih ks' e2, (checkCred_iff.1 e1).1]
  generalize b.guarantees = gs at hv ⊢
  have key : ∀ (gs : List (Guarantee σ)) (ks : List Nat), checkGuarantees (ctx P E s b cs) gs = .ok ks → ks.map some = gs.flatMap fun g => g.creds.map fun c =>
      (if b.slot / P.rotation = g.slot / P.rotation then E.current else E.previous).keys[c.voter]? := by
    intro gs
    induction gs with
    | nil => intro ks h; unfold checkGuarantees at h; injection h with h; rw [← h]; rfl
    | cons g gs ih =>
      intro ks h
      unfold checkGuarantees at h
      split at h
      · cases h
      split at h
      · cases h
      rename_i k1 e1
      split at h
      · cases h
      rename_i k2 e2
      injection h with h
      rw [← h, List.map_append, List.flatMap_cons, ih k2 e2]
      unfold validateCreds at e1
      split at e1
      · cases e1
      split at e1
      · cases e1
      split at e1
      · cases e1
      rw [hc _ _ _ _ _ e1]
      rfl
  exact key gs keys hv

example : [10, 11].map some = [Ex.env.previous.keys[0]?, Ex.env.previous.keys[1]?] := C46_reporters Ex.step2

end Fastroll.Reports
