import Verif.Reports.Lemmas
/-! Lemmas on blocks and chains of blocks. -/
namespace Fastroll.Reports
open Fastroll.Judge (sortedBy noDup)
variable {σ : Type}

/-- Reports found bad or wonky. -/
def condemned (E : Env σ) (b : Block σ) : List Nat := Judge.split E.judge.V .bad b.disputes.verdicts ++ Judge.split E.judge.V .wonky b.disputes.verdicts

/-- ρ†. -/
def dagger (E : Env σ) (s : St) (b : Block σ) : List (Option Pending) := removeAll E.hash (condemned E b) s.pending

/-- ρ‡. -/
def ddagger (P : Par) (E : Env σ) (s : St) (b : Block σ) (cs : List Nat) : List (Option Pending) :=
  clear (dagger E s b) (cs ++ timedOut P b.slot (dagger E s b) 0)

def ctx (P : Par) (E : Env σ) (s : St) (b : Block σ) (cs : List Nat) : Ctx σ :=
  { P, E, slot := b.slot, pend := ddagger P E s b cs, pend0 := s.pending, pools := s.pools, hist := setRoot b.parentRoot s.hist,
    reports := b.guarantees.map Guarantee.report }

/-- What an accepted block went through. -/
structure Done (P : Par) (E : Env σ) (s : St) (b : Block σ) (s' : St) (av : List Report) (keys : List Nat) (cs : List Nat) : Prop where
  judged : Judge.transition E.judge s.judged b.disputes = .ok s'.judged
  assured : validateAssurances E b.parent (dagger E s b) b.assurances = .ok ()
  cores : availableCores P b.assurances = some cs
  collected : collect (dagger E s b) cs = .ok av
  guaranteed : validateGuarantees (ctx P E s b cs) b.guarantees = .ok keys
  pending : s'.pending = place b.slot (ddagger P E s b cs) b.guarantees
  pools : s'.pools = nextPools P E.queues b.slot b.guarantees s.pools 0
  hist : s'.hist = append P (setRoot b.parentRoot s.hist) b.header E.mmr (b.guarantees.map fun g => (g.report.pkg, g.report.seg))

theorem step_done {P : Par} {E : Env σ} {s s' : St} {b : Block σ} {av : List Report} {keys : List Nat} (h : step P E s b = .ok (s', av, keys)) :
    ∃ cs, Done P E s b s' av keys cs := by
  unfold step at h
  split at h
  · cases h
  rename_i judged e1
  dsimp only at h
  unfold eliminate at h
  split at h
  · cases h
  rename_i pend1 e2
  split at e2
  · cases e2
  injection e2 with e2
  change dagger E s b = pend1 at e2
  subst e2
  unfold clearAvailable at h
  split at h
  · cases h
  rename_i pend2 av' e3
  split at e3
  · cases e3
  rename_i e4
  split at e3
  · cases e3
  rename_i cs e5
  split at e3
  · cases e3
  rename_i rs e6
  injection e3 with e3
  injection e3 with e3 e3'
  subst e3; subst e3'
  split at h
  · cases h
  rename_i keys' e7
  injection h with h
  injection h with h h'
  injection h' with h' h''
  subst h; subst h'; subst h''
  exact ⟨cs, e1, e4, e5, e6, e7, rfl, rfl, rfl⟩

theorem step_of {P : Par} {E : Env σ} {s : St} {b : Block σ} {judged : Judge.Disputes} {cs : List Nat} {av : List Report} {keys : List Nat}
    (h1 : Judge.transition E.judge s.judged b.disputes = .ok judged) (h2 : validateAssurances E b.parent (dagger E s b) b.assurances = .ok ())
    (h3 : availableCores P b.assurances = some cs) (h4 : collect (dagger E s b) cs = .ok av)
    (h5 : validateGuarantees (ctx P E s b cs) b.guarantees = .ok keys) : ∃ s', step P E s b = .ok (s', av, keys) := by
  have hv : Judge.validate E.judge s.judged b.disputes = .ok () := by
    unfold Judge.transition at h1
    split at h1
    · cases h1
    · assumption
  have he : eliminate E s.judged s.pending b.disputes = .ok (dagger E s b) := by
    unfold eliminate; rw [hv]; rfl
  have hc : clearAvailable P E b (dagger E s b) = .ok (ddagger P E s b cs, av) := by
    unfold clearAvailable; rw [h2]; dsimp only; rw [h3]; dsimp only; rw [h4]; rfl
  unfold step
  rw [h1]; dsimp only
  rw [he]; dsimp only
  rw [hc]; dsimp only
  unfold ctx at h5
  rw [h5]
  exact ⟨_, rfl⟩

theorem mem_condemned' {E : Env σ} {b : Block σ} {h : Nat} : h ∈ condemned E b ↔ Spec.Condemned E.judge.V b.disputes h := mem_condemned

theorem dagger_length {E : Env σ} {s : St} {b : Block σ} : (dagger E s b).length = s.pending.length := removeAll_length

theorem ddagger_length {P : Par} {E : Env σ} {s : St} {b : Block σ} {cs : List Nat} : (ddagger P E s b cs).length = s.pending.length := by
  unfold ddagger; rw [clear_length, dagger_length]

theorem ddagger_at {P : Par} {E : Env σ} {s : St} {b : Block σ} {cs : List Nat} {c : Nat} {p : Pending} :
    Spec.At (ddagger P E s b cs) c p ↔ Spec.At (dagger E s b) c p ∧ c ∉ cs ∧ ¬ p.slot + P.timeout ≤ b.slot := by
  unfold ddagger
  rw [clear_at, List.mem_append, not_or, mem_timedOut']
  constructor
  · rintro ⟨h1, h2, h3⟩
    exact ⟨h1, h2, fun h => h3 ⟨p, h1, h⟩⟩
  · rintro ⟨h1, h2, h3⟩
    refine ⟨h1, h2, fun ⟨q, hq, hs⟩ => h3 ?_⟩
    unfold Spec.At at h1 hq
    rw [h1] at hq
    injection hq with hq; injection hq with hq
    rw [hq]; exact hs

/-! ## Facts about an accepted block -/

section
variable {P : Par} {E : Env σ} {s s' : St} {b : Block σ} {av : List Report} {keys cs : List Nat}

theorem Done.assurances (h : Done P E s b s' av keys cs) :
    Spec.Increasing (b.assurances.map Assurance.voter) ∧ ∀ a ∈ b.assurances, Spec.AssuranceOk E b.parent (dagger E s b) a := validateAssurances_iff.1 h.assured

theorem Done.assurer (h : Done P E s b s' av keys cs) {c i : Nat} (hi : i ∈ Spec.assurers b.assurances c) :
    ∃ a ∈ b.assurances, a.voter = i ∧ a.bits[c]? = some true ∧ a.parent = b.parent ∧ ∃ key, E.judge.active[i]? = some key ∧ E.verAvail key b.parent a.bits a.sig = true := by
  unfold Spec.assurers at hi
  obtain ⟨a, ha, e⟩ := List.mem_map.1 hi
  obtain ⟨ha, hb⟩ := List.mem_filter.1 ha
  obtain ⟨h1, h2, _⟩ := h.assurances.2 a ha
  rw [e] at h2
  exact ⟨a, ha, e, by simpa using hb, h1, h2⟩

theorem Done.assurers_up (h : Done P E s b s' av keys cs) (c : Nat) : Spec.Increasing (Spec.assurers b.assurances c) :=
  h.assurances.1.sublist (List.Sublist.map _ List.filter_sublist)

theorem Done.assurers_lt (h : Done P E s b s' av keys cs) {c i : Nat} (hi : i ∈ Spec.assurers b.assurances c) : i < E.judge.active.length := by
  obtain ⟨_, _, _, _, _, key, hk, _⟩ := h.assurer hi
  exact (List.getElem?_eq_some_iff.1 hk).1

theorem Done.keysOk (h : Done P E s b s' av keys cs) (hm : P.maxGas < 2 ^ 64 - 1) :
    Spec.GuaranteesOk P E b.slot (ddagger P E s b cs) s.pending s.pools (setRoot b.parentRoot s.hist) b.guarantees :=
  (validateGuarantees_ok_iff (X := ctx P E s b cs) hm rfl).1 ⟨keys, h.guaranteed⟩

/-- Distinct cores, whatever the gas limit. -/
theorem Done.cores_up (h : Done P E s b s' av keys cs) : Spec.Increasing (b.guarantees.map fun g => g.report.core) := by
  have h := h.guaranteed
  unfold validateGuarantees at h
  by_cases c0 : b.guarantees.isEmpty = true
  · rw [List.isEmpty_iff.1 c0]; exact List.Pairwise.nil
  rw [if_neg c0] at h
  by_cases c1 : (!sortedBy (fun g : Guarantee σ => g.report.core) b.guarantees) = true
  · rw [if_pos c1] at h; cases h
  rw [if_neg c1] at h
  by_cases c2 : (!noDup (b.guarantees.map fun g => g.report.core) []) = true
  · rw [if_pos c2] at h; cases h
  exact increasing_iff.2 ⟨Judge.sortedBy_iff.1 (by simpa using c1), Judge.nodup_of_noDup (by simpa using c2)⟩

theorem Done.pkgs (h : Done P E s b s' av keys cs) : (b.guarantees.map fun g => g.report.pkg).Nodup := by
  have h := h.guaranteed
  unfold validateGuarantees at h
  by_cases c0 : b.guarantees.isEmpty = true
  · rw [List.isEmpty_iff.1 c0]; exact List.Pairwise.nil
  rw [if_neg c0] at h
  by_cases c1 : (!sortedBy (fun g : Guarantee σ => g.report.core) b.guarantees) = true
  · rw [if_pos c1] at h; cases h
  rw [if_neg c1] at h
  by_cases c2 : (!noDup (b.guarantees.map fun g => g.report.core) []) = true
  · rw [if_pos c2] at h; cases h
  rw [if_neg c2] at h
  by_cases c3 : (!noDup (b.guarantees.map fun g => g.report.pkg) []) = true
  · rw [if_pos c3] at h; cases h
  exact Judge.nodup_of_noDup (by simpa using c3)

theorem Done.checked (h : Done P E s b s' av keys cs) {g : Guarantee σ} (hg : g ∈ b.guarantees) : checkReport (ctx P E s b cs) g.report = .ok () := by
  have h := h.guaranteed
  unfold validateGuarantees at h
  by_cases c0 : b.guarantees.isEmpty = true
  · rw [List.isEmpty_iff.1 c0] at hg; exact absurd hg List.not_mem_nil
  rw [if_neg c0] at h
  by_cases c1 : (!sortedBy (fun g : Guarantee σ => g.report.core) b.guarantees) = true
  · rw [if_pos c1] at h; cases h
  rw [if_neg c1] at h
  by_cases c2 : (!noDup (b.guarantees.map fun g => g.report.core) []) = true
  · rw [if_pos c2] at h; cases h
  rw [if_neg c2] at h
  by_cases c3 : (!noDup (b.guarantees.map fun g => g.report.pkg) []) = true
  · rw [if_pos c3] at h; cases h
  rw [if_neg c3] at h
  exact (checkGuarantees_ok_iff.1 ⟨_, h⟩ g hg).1

/-- The part of `ReportOk` that needs no bound on gas. -/
theorem checkReport_facts {X : Ctx σ} {r : Report} (h : checkReport X r = .ok ()) :
    X.pend[r.core]? = some none ∧ (∃ pool, X.pools[r.core]? = some pool ∧ r.auth ∈ pool) ∧
    (∃ e, (X.hist.find? fun e => e.header == r.anchor) = some e ∧ e.root = r.anchorRoot ∧ e.mmr = r.anchorMmr) ∧ (∀ m ∈ Spec.recent X.hist, m.1 ≠ r.pkg) := by
  unfold checkReport at h
  by_cases c1 : totalBytes r > X.P.maxBytes
  · rw [if_pos c1] at h; cases h
  rw [if_neg c1] at h
  by_cases c2 : totalGas r.digests > X.P.maxGas
  · rw [if_pos c2] at h; cases h
  rw [if_neg c2] at h
  cases h3 : checkGas X.E.service r.digests with
  | error x => rw [h3] at h; cases h
  | ok u =>
    cases u
    rw [h3] at h
    dsimp only at h
    cases h4 : X.pend[r.core]? with
    | none => rw [h4] at h; cases h
    | some p =>
      cases h5 : X.pools[r.core]? with
      | none => rw [h4, h5] at h; cases h
      | some pool =>
        rw [h4, h5] at h
        dsimp only at h
        by_cases c4 : p.isSome = true
        · rw [if_pos c4] at h; cases h
        rw [if_neg c4] at h
        by_cases c5 : (!pool.contains r.auth) = true
        · rw [if_pos c5] at h; cases h
        rw [if_neg c5] at h
        cases h6 : checkAnchor X.hist r with
        | error x => rw [h6] at h; cases h
        | ok u =>
          cases u
          rw [h6] at h
          dsimp only at h
          cases h7 : checkLookupAnchor X.P X.E X.slot r with
          | error x => rw [h7] at h; cases h
          | ok u =>
            cases u
            rw [h7] at h
            dsimp only at h
            by_cases c8 : inHist X.hist r.pkg = true
            · rw [if_pos c8] at h; cases h
            refine ⟨?_, ⟨pool, rfl, by simpa using c5⟩, checkAnchor_iff.1 h6, fun m hm e => c8 (inHist_iff.2 ⟨m, hm, e⟩)⟩
            cases p with
            | none => rfl
            | some q => exact absurd rfl c4

theorem Done.free (h : Done P E s b s' av keys cs) {g : Guarantee σ} (hg : g ∈ b.guarantees) : (ddagger P E s b cs)[g.report.core]? = some none :=
  (checkReport_facts (h.checked hg)).1

/-- The pending reports after the block. -/
theorem Done.at_iff (h : Done P E s b s' av keys cs) {c : Nat} {p : Pending} :
    Spec.At s'.pending c p ↔ (Spec.Guaranteed b c p.report ∧ p.slot = b.slot) ∨ Spec.At (ddagger P E s b cs) c p := by
  rw [h.pending]
  by_cases hc : ∃ g ∈ b.guarantees, g.report.core = c
  · obtain ⟨g, hg, e⟩ := hc
    have hf := h.free hg
    have hl : g.report.core < (ddagger P E s b cs).length := (List.getElem?_eq_some_iff.1 hf).1
    have hp := place_at (slot := b.slot) (increasing_iff.1 h.cores_up).2 hg hl
    rw [e] at hp hf
    unfold Spec.At at hp
    constructor
    · intro ha
      unfold Spec.At at ha
      rw [hp] at ha
      injection ha with ha; injection ha with ha
      rw [← ha]
      exact Or.inl ⟨⟨g, hg, rfl, e⟩, rfl⟩
    · rintro (⟨⟨g', hg', e', hr⟩, hs⟩ | ha)
      · have hp' := place_at (slot := b.slot) (increasing_iff.1 h.cores_up).2 hg' (by rw [e', hr, ← e]; exact hl)
        rw [e', hr] at hp'
        have ep : (⟨p.report, b.slot⟩ : Pending) = p := by rw [← hs]
        rw [ep] at hp'
        exact hp'
      · unfold Spec.At at ha; rw [hf] at ha; cases ha
  · have ho : ∀ g ∈ b.guarantees, g.report.core ≠ c := fun g hg e => hc ⟨g, hg, e⟩
    unfold Spec.At
    rw [place_other ho]
    constructor
    · exact Or.inr
    · rintro (⟨⟨g, hg, e, e'⟩, _⟩ | ha)
      · exact absurd (by rw [e]; exact e') (ho g hg)
      · exact ha

theorem Done.collected_some (h : Done P E s b s' av keys cs) {c : Nat} (hc : c ∈ cs) : ∃ p, Spec.At (dagger E s b) c p ∧ p.report ∈ av := by
  have hq := ((mem_available h.cores c).1 hc).2
  unfold Spec.Supermajority at hq
  cases e : Spec.assurers b.assurances c with
  | nil => rw [e] at hq; simp at hq
  | cons i l =>
    obtain ⟨a, ha, _, hb, _⟩ := h.assurer (c := c) (i := i) (by rw [e]; exact List.mem_cons_self)
    obtain ⟨p, hp⟩ := (h.assurances.2 a ha).2.2 c hb
    refine ⟨p, hp, ?_⟩
    have hm := collect_ok h.collected
    have : some p.report ∈ av.map some := by
      rw [hm]
      exact List.mem_map.2 ⟨c, hc, by rw [hp]; rfl⟩
    obtain ⟨r, hr, er⟩ := List.mem_map.1 this
    rw [← Option.some.inj er]; exact hr

theorem Done.of_collected (h : Done P E s b s' av keys cs) {r : Report} (hr : r ∈ av) : ∃ c ∈ cs, ∃ p, Spec.At (dagger E s b) c p ∧ p.report = r := by
  have hm := collect_ok h.collected
  have : some r ∈ av.map some := List.mem_map.2 ⟨r, hr, rfl⟩
  rw [hm] at this
  obtain ⟨c, hc, e⟩ := List.mem_map.1 this
  obtain ⟨p, hp, ep⟩ := Option.map_eq_some_iff.1 e
  obtain ⟨o, ho, eo⟩ := Option.bind_eq_some_iff.1 hp
  exact ⟨c, hc, p, by unfold Spec.At; rw [ho]; exact congrArg some eo, ep⟩

end

/-! ## Pools -/

theorem nextPools_get {P : Par} {qs : List (List Nat)} {slot : Nat} {xt : List (Guarantee σ)} {pools : List (List Nat)} {i c : Nat} :
    (nextPools P qs slot xt pools i)[c]? = pools[c]?.map (nextPool P qs slot xt (i + c)) := by
  induction pools generalizing i c with
  | nil => simp [nextPools]
  | cons p pools ih =>
    unfold nextPools
    cases c with
    | zero => simp
    | succ c =>
      simp only [List.getElem?_cons_succ]
      rw [ih, Nat.add_right_comm i 1 c, Nat.add_assoc]

theorem nextPools_length {P : Par} {qs : List (List Nat)} {slot : Nat} {xt : List (Guarantee σ)} {pools : List (List Nat)} {i : Nat} :
    (nextPools P qs slot xt pools i).length = pools.length := by
  induction pools generalizing i with
  | nil => rfl
  | cons p pools ih => simp [nextPools, ih]

theorem lastN_of_le {α : Type} {n : Nat} {l : List α} (h : l.length ≤ n) : Spec.lastN n l = l := by
  unfold Spec.lastN
  rw [Nat.sub_eq_zero_of_le h]; rfl

theorem lastN_length {α : Type} {n : Nat} {l : List α} : (Spec.lastN n l).length = min n l.length := by
  unfold Spec.lastN
  rw [List.length_drop]; omega

theorem lastN_append {α : Type} (n : Nat) (a b : List α) : Spec.lastN n (Spec.lastN n a ++ b) = Spec.lastN n (a ++ b) := by
  unfold Spec.lastN
  rw [← List.drop_append_of_le_length (Nat.sub_le _ _), List.drop_drop]
  congr 1
  simp only [List.length_drop, List.length_append]
  omega

theorem shiftPush_eq {α : Type} {cap : Nat} {l : List α} {x : α} (h : l.length ≤ cap) : cap ≠ 0 → shiftPush cap l x = Spec.lastN cap (l ++ [x]) := by
  intro hc
  unfold shiftPush Spec.lastN
  rw [List.length_append, List.length_singleton]
  split
  · rename_i hl
    have e : l.length = cap := by omega
    rw [e, show cap + 1 - cap = 1 by omega, List.drop_append_of_le_length (by omega)]
  · rename_i hl
    rw [show l.length + 1 - cap = 0 by omega]; rfl

/-- The authorizer queued for the slot. -/
def entry (P : Par) (qs : List (List Nat)) (slot core : Nat) : Option Nat := (qs[core]?).bind fun q => q[slot % P.queueLen]?

/-- The pool without the authorizer used. -/
def unused (xt : List (Guarantee σ)) (core : Nat) (pool : List Nat) : List Nat :=
  match xt.find? fun g => g.report.core == core with
  | none => pool
  | some g => pool.erase g.report.auth

theorem nextPool_eq {P : Par} {qs : List (List Nat)} {slot : Nat} {xt : List (Guarantee σ)} {core : Nat} {pool : List Nat} (hp : P.poolLen ≠ 0)
    (hl : pool.length ≤ P.poolLen) :
    nextPool P qs slot xt core pool = Spec.lastN P.poolLen (unused xt core pool ++ (entry P qs slot core).toList) := by
  have hu : (unused xt core pool).length ≤ P.poolLen := by
    unfold unused
    split
    · exact hl
    · exact Nat.le_trans List.erase_sublist.length_le hl
  have e : nextPool P qs slot xt core pool = match entry P qs slot core with | none => unused xt core pool | some h => shiftPush P.poolLen (unused xt core pool) h := rfl
  rw [e]
  cases entry P qs slot core with
  | none => simp [lastN_of_le hu]
  | some h => exact shiftPush_eq hu hp

theorem unused_none {xt : List (Guarantee σ)} {core : Nat} {pool : List Nat} (h : ∀ g ∈ xt, g.report.core ≠ core) : unused xt core pool = pool := by
  unfold unused
  rw [List.find?_eq_none.2 fun g hg => by simpa using h g hg]

theorem unused_some {xt : List (Guarantee σ)} {core : Nat} {pool : List Nat} (hn : (xt.map fun g => g.report.core).Nodup) {g : Guarantee σ} (hg : g ∈ xt)
    (hc : g.report.core = core) : unused xt core pool = pool.erase g.report.auth := by
  unfold unused
  have : (xt.find? fun g => g.report.core == core) = some g := by
    induction xt with
    | nil => exact absurd hg List.not_mem_nil
    | cons a xt ih =>
      rw [List.map_cons, List.nodup_cons] at hn
      rcases List.mem_cons.1 hg with e | hg
      · rw [← e, List.find?_cons_of_pos (by simpa using hc)]
      · rw [List.find?_cons_of_neg, ih hn.2 hg]
        intro ha
        exact hn.1 (List.mem_map.2 ⟨g, hg, by rw [hc]; exact (by simpa using ha : a.report.core = core).symm⟩)
  rw [this]

/-! ## History -/

theorem setRoot_length {r : Nat} {l : List Hist} : (setRoot r l).length = l.length := by
  induction l with
  | nil => rfl
  | cons e l ih =>
    cases l with
    | nil => rfl
    | cons f l => unfold setRoot; simp only [List.length_cons] at ih ⊢; omega

theorem setRoot_snoc {r : Nat} {l : List Hist} {e : Hist} : setRoot r (l ++ [e]) = l ++ [{ e with root := r }] := by
  induction l with
  | nil => rfl
  | cons a l ih =>
    cases l with
    | nil => rfl
    | cons b l =>
      simp only [List.cons_append] at ih ⊢
      unfold setRoot
      rw [ih]

theorem setRoot_cases (r : Nat) (l : List Hist) : l = [] ∨ ∃ l' e, l = l' ++ [e] ∧ setRoot r l = l' ++ [{ e with root := r }] := by
  rcases List.eq_nil_or_concat l with h | ⟨l', e, h⟩
  · exact Or.inl h
  · rw [List.concat_eq_append] at h
    exact Or.inr ⟨l', e, h, by rw [h, setRoot_snoc]⟩

theorem setRoot_headers {r : Nat} {l : List Hist} : (setRoot r l).map Hist.header = l.map Hist.header := by
  rcases setRoot_cases r l with h | ⟨l', e, h1, h2⟩
  · rw [h]; rfl
  · rw [h2, h1, List.map_append, List.map_append]; rfl

theorem setRoot_packages {r : Nat} {l : List Hist} : (setRoot r l).map Hist.packages = l.map Hist.packages := by
  rcases setRoot_cases r l with h | ⟨l', e, h1, h2⟩
  · rw [h]; rfl
  · rw [h2, h1, List.map_append, List.map_append]; rfl

theorem setRoot_recent {r : Nat} {l : List Hist} : Spec.recent (setRoot r l) = Spec.recent l := by
  unfold Spec.recent
  rw [List.flatMap_def, List.flatMap_def, setRoot_packages]

theorem setRoot_lastN {r n : Nat} (hn : n ≠ 0) (l : List Hist) : setRoot r (Spec.lastN n l) = Spec.lastN n (setRoot r l) := by
  rcases setRoot_cases r l with h | ⟨l', e, h1, h2⟩
  · rw [h]; simp [Spec.lastN, setRoot]
  · rw [h2, h1]
    unfold Spec.lastN
    rw [List.length_append, List.length_append, List.length_singleton, List.length_singleton]
    rw [List.drop_append_of_le_length (by omega), List.drop_append_of_le_length (by omega), setRoot_snoc]

theorem insertPair_perm {x : Nat × Nat} {l : List (Nat × Nat)} : (insertPair x l).Perm (x :: l) := by
  induction l with
  | nil => exact List.Perm.refl _
  | cons y l ih =>
    unfold insertPair
    split
    · exact List.Perm.refl _
    · exact (List.Perm.cons y ih).trans (List.Perm.swap x y l)

theorem sortPairs_perm {l : List (Nat × Nat)} : (sortPairs l).Perm l := by
  unfold sortPairs
  induction l with
  | nil => exact List.Perm.refl _
  | cons x l ih => exact insertPair_perm.trans (ih.cons x)

theorem pairLe_total {a b : Nat × Nat} (h : ¬ pairLe a b = true) : pairLe b a = true := by
  unfold pairLe at *
  simp only [decide_eq_true_eq] at *
  omega

theorem pairLe_trans {a b c : Nat × Nat} (h1 : pairLe a b = true) (h2 : pairLe b c = true) : pairLe a c = true := by
  unfold pairLe at *
  simp only [decide_eq_true_eq] at *
  omega

theorem insertPair_sorted {x : Nat × Nat} {l : List (Nat × Nat)} (h : l.Pairwise fun a b => pairLe a b = true) :
    (insertPair x l).Pairwise fun a b => pairLe a b = true := by
  induction l with
  | nil => exact List.pairwise_singleton _ _
  | cons y l ih =>
    obtain ⟨h1, h2⟩ := List.pairwise_cons.1 h
    unfold insertPair
    split
    · rename_i hx
      refine List.pairwise_cons.2 ⟨fun z hz => ?_, h⟩
      rcases List.mem_cons.1 hz with e | hz
      · rw [e]; exact hx
      · exact pairLe_trans hx (h1 z hz)
    · rename_i hx
      refine List.pairwise_cons.2 ⟨fun z hz => ?_, ih h2⟩
      rcases List.mem_cons.1 (insertPair_perm.mem_iff.1 hz) with e | hz
      · rw [e]; exact pairLe_total hx
      · exact h1 z hz

theorem sortPairs_sorted {l : List (Nat × Nat)} : (sortPairs l).Pairwise fun a b => pairLe a b = true := by
  unfold sortPairs
  induction l with
  | nil => exact List.Pairwise.nil
  | cons x l ih => exact insertPair_sorted ih

/-- The entry a block adds to the history. -/
def item (E : Env σ) (b : Block σ) : Hist :=
  { header := b.header, mmr := E.mmr, root := 0, packages := sortPairs (b.guarantees.map fun g => (g.report.pkg, g.report.seg)) }

/-- The history without the bound. -/
def link : List (Env σ × Block σ) → List Hist → List Hist
  | [], l => l
  | eb :: bs, l => link bs (setRoot eb.2.parentRoot l ++ [item eb.1 eb.2])

theorem Done.hist_eq {P : Par} {E : Env σ} {s s' : St} {b : Block σ} {av : List Report} {keys cs : List Nat} (h : Done P E s b s' av keys cs)
    (hh : P.histLen ≠ 0) (hl : s.hist.length ≤ P.histLen) : s'.hist = Spec.lastN P.histLen (setRoot b.parentRoot s.hist ++ [item E b]) := by
  rw [h.hist]
  unfold append
  exact shiftPush_eq (by rw [setRoot_length]; exact hl) hh

/-! ## Runs -/

theorem run_snoc {P : Par} {bs : List (Env σ × Block σ)} {eb : Env σ × Block σ} {s s' : St} (h : run P (bs ++ [eb]) s = .ok s') :
    ∃ s1 av keys, run P bs s = .ok s1 ∧ step P eb.1 s1 eb.2 = .ok (s', av, keys) := by
  induction bs generalizing s with
  | nil =>
    simp only [List.nil_append] at h
    unfold run at h
    split at h
    · cases h
    · rename_i s1 out e
      unfold run at h
      injection h with h
      exact ⟨s, out.1, out.2, rfl, by rw [← h]; exact e⟩
  | cons b bs ih =>
    rw [List.cons_append] at h
    unfold run at h
    split at h
    · cases h
    · rename_i s1 out e
      obtain ⟨s2, av, keys, h1, h2⟩ := ih h
      exact ⟨s2, av, keys, by unfold run; rw [e]; exact h1, h2⟩

theorem run_append {P : Par} {bs cs : List (Env σ × Block σ)} {s s' : St} (h : run P (bs ++ cs) s = .ok s') :
    ∃ s1, run P bs s = .ok s1 ∧ run P cs s1 = .ok s' := by
  induction bs generalizing s with
  | nil => exact ⟨s, rfl, h⟩
  | cons b bs ih =>
    rw [List.cons_append] at h
    unfold run at h
    split at h
    · cases h
    · rename_i s1 out e
      obtain ⟨s2, h1, h2⟩ := ih h
      exact ⟨s2, by unfold run; rw [e]; exact h1, h2⟩

/-- Every block of a chain is accepted by some state the chain passes through. -/
theorem run_at {P : Par} {bs : List (Env σ × Block σ)} {s s' : St} (h : run P bs s = .ok s') {i : Nat} {eb : Env σ × Block σ} (hi : bs[i]? = some eb) :
    ∃ s1 s2 av keys, run P (bs.take i) s = .ok s1 ∧ step P eb.1 s1 eb.2 = .ok (s2, av, keys) ∧ run P (bs.drop (i + 1)) s2 = .ok s' := by
  have hl := (List.getElem?_eq_some_iff.1 hi).1
  have e : bs = bs.take i ++ eb :: bs.drop (i + 1) := by
    have : bs.drop i = eb :: bs.drop (i + 1) := by
      rw [List.drop_eq_getElem_cons hl, (List.getElem?_eq_some_iff.1 hi).2]
    rw [← this, List.take_append_drop]
  rw [e] at h
  obtain ⟨s1, h1, h2⟩ := run_append h
  unfold run at h2
  split at h2
  · cases h2
  · rename_i s2 out e2
    exact ⟨s1, s2, out.1, out.2, h1, e2, h2⟩

theorem run_hist {P : Par} {bs : List (Env σ × Block σ)} {s s' : St} (h : run P bs s = .ok s') (hh : P.histLen ≠ 0) (hl : s.hist.length ≤ P.histLen) :
    s'.hist = Spec.lastN P.histLen (link bs s.hist) := by
  suffices hs : ∀ l, s.hist = Spec.lastN P.histLen l → s'.hist = Spec.lastN P.histLen (link bs l) from hs _ (lastN_of_le hl).symm
  intro l e
  induction bs generalizing s l with
  | nil => unfold run at h; injection h with h; rw [← h]; exact e
  | cons b bs ih =>
    unfold run at h
    split at h
    · cases h
    · rename_i s1 out e1
      obtain ⟨cs, hd⟩ := step_done e1
      have h1 := hd.hist_eq hh hl
      refine ih h (by rw [h1, lastN_length]; exact Nat.min_le_left _ _) _ ?_
      rw [h1, e, setRoot_lastN hh, lastN_append]

theorem link_append {bs cs : List (Env σ × Block σ)} {l : List Hist} : link (bs ++ cs) l = link cs (link bs l) := by
  induction bs generalizing l with
  | nil => rfl
  | cons b bs ih => exact ih (l := setRoot b.2.parentRoot l ++ [item b.1 b.2])

theorem link_headers {bs : List (Env σ × Block σ)} {l : List Hist} : (link bs l).map Hist.header = l.map Hist.header ++ bs.map fun b => b.2.header := by
  induction bs generalizing l with
  | nil => simp [link]
  | cons b bs ih => unfold link; rw [ih, List.map_append, setRoot_headers]; simp [item]

theorem link_packages {bs : List (Env σ × Block σ)} {l : List Hist} : (link bs l).map Hist.packages = l.map Hist.packages ++ bs.map fun b => (item b.1 b.2).packages := by
  induction bs generalizing l with
  | nil => simp [link]
  | cons b bs ih => unfold link; rw [ih, List.map_append, setRoot_packages]; simp

theorem link_length {bs : List (Env σ × Block σ)} {l : List Hist} : (link bs l).length = l.length + bs.length := by
  have := congrArg List.length (link_headers (bs := bs) (l := l))
  simpa using this

/-- The entries from `e` on, with the roots announced by their successors. -/
def chain (e : Hist) : List (Env σ × Block σ) → List Hist
  | [] => [e]
  | b :: bs => { e with root := b.2.parentRoot } :: chain (item b.1 b.2) bs

theorem link_chain {bs : List (Env σ × Block σ)} {l : List Hist} {e : Hist} : link bs (l ++ [e]) = l ++ chain e bs := by
  induction bs generalizing l e with
  | nil => rfl
  | cons b bs ih =>
    unfold link
    rw [setRoot_snoc, ih]
    simp [chain]

theorem chain_get {b : Env σ × Block σ} {bs : List (Env σ × Block σ)} {i : Nat} : (chain (item b.1 b.2) bs)[i]? =
    (b :: bs)[i]?.map fun c => { item c.1 c.2 with root := ((b :: bs)[i + 1]?.map fun c => c.2.parentRoot).getD 0 } := by
  induction bs generalizing b i with
  | nil => cases i <;> simp [chain, item]
  | cons c bs ih =>
    unfold chain
    cases i with
    | zero => simp
    | succ i =>
      rw [List.getElem?_cons_succ, ih]
      simp

/-- Index form of the unbounded history: everything but the newest entry has its successor's parent root. -/
theorem link_get {bs : List (Env σ × Block σ)} {i : Nat} : (link bs [])[i]? =
    bs[i]?.map fun b => { item b.1 b.2 with root := (bs[i + 1]?.map fun c => c.2.parentRoot).getD 0 } := by
  cases bs with
  | nil => simp [link]
  | cons b bs =>
    have : link (b :: bs) [] = chain (item b.1 b.2) bs := by
      have := link_chain (bs := bs) (l := []) (e := item b.1 b.2)
      simpa [link, setRoot] using this
    rw [this, chain_get]

/-! ## Shape -/

theorem Done.shape {P : Par} {E : Env σ} {s s' : St} {b : Block σ} {av : List Report} {keys cs : List Nat} (h : Done P E s b s' av keys cs)
    (hh : P.histLen ≠ 0) (hp : P.poolLen ≠ 0) (hs : Spec.Shape P s) : Spec.Shape P s' := by
  refine ⟨?_, ?_, ?_, ?_, ?_⟩
  · rw [h.pending, place_length, ddagger_length, hs.pending]
  · intro c p ha
    rcases h.at_iff.1 ha with ⟨⟨g, _, _, e⟩, _⟩ | ha
    · exact e
    · exact hs.cores c p (removeAll_at (ddagger_at.1 ha).1)
  · rw [h.hist_eq hh hs.hist, lastN_length]; exact Nat.min_le_left _ _
  · rw [h.pools, nextPools_length, hs.pools]
  · intro pool hm
    obtain ⟨c, hc⟩ := List.getElem?_of_mem hm
    rw [h.pools, nextPools_get] at hc
    obtain ⟨q, hq, e⟩ := Option.map_eq_some_iff.1 hc
    rw [← e, nextPool_eq hp (hs.pool q (List.mem_of_getElem? hq)), lastN_length]
    exact Nat.min_le_left _ _

theorem run_shape {P : Par} {bs : List (Env σ × Block σ)} {s s' : St} (h : run P bs s = .ok s') (hh : P.histLen ≠ 0) (hp : P.poolLen ≠ 0)
    (hs : Spec.Shape P s) : Spec.Shape P s' := by
  induction bs generalizing s with
  | nil => unfold run at h; injection h with h; rw [← h]; exact hs
  | cons b bs ih =>
    unfold run at h
    split at h
    · cases h
    · rename_i s1 out e
      obtain ⟨cs, hd⟩ := step_done e
      exact ih h (hd.shape hh hp hs)

end Fastroll.Reports
