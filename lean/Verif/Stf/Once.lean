import Verif.Stf.Stages
import Verif.Stf.Spec
/-! No package goes through the pipeline twice. -/
namespace Fastroll.Stf
variable {σ η ρ ω π : Type}

/-- The packages made available over a list of stages. -/
def availPkgs (l : List (Stage σ η ρ ω π)) : List Nat := l.flatMap fun g => g.parts.available.map Reports.Report.pkg

/-- A package was guaranteed in one of the stages. -/
def Seen (l : List (Stage σ η ρ ω π)) (p : Nat) : Prop := ∃ (i : Nat) (g : Stage σ η ρ ω π), l[i]? = some g ∧ ∃ gu ∈ g.blk.guarantees, gu.report.pkg = p

theorem eq_of_map_nodup {α β : Type} {f : α → β} {l : List α} (h : (l.map f).Nodup) {a b : α} (ha : a ∈ l) (hb : b ∈ l) (e : f a = f b) : a = b := by
  induction l with
  | nil => cases ha
  | cons c l ih =>
    rw [List.map_cons, List.nodup_cons] at h
    rcases List.mem_cons.1 ha with h1 | h1 <;> rcases List.mem_cons.1 hb with h2 | h2
    · rw [h1, h2]
    · exact absurd (List.mem_map.2 ⟨b, h2, by rw [← e, h1]⟩) h.1
    · exact absurd (List.mem_map.2 ⟨a, h1, by rw [e, h2]⟩) h.1
    · exact ih h.2 h1 h2

structure Apart (l : List (Stage σ η ρ ω π)) (s : State η ρ ω) : Prop where
  nodup : (availPkgs l).Nodup
  away : ∀ c p, Reports.Spec.At s.pending c p → p.report.pkg ∉ availPkgs l
  inj : ∀ c p c' p', Reports.Spec.At s.pending c p → Reports.Spec.At s.pending c' p' → p.report.pkg = p'.report.pkg → c = c'
  seenA : ∀ p ∈ availPkgs l, Seen l p
  seenP : ∀ c p, Reports.Spec.At s.pending c p → Seen l p.report.pkg

theorem Seen.snoc {l : List (Stage σ η ρ ω π)} {g : Stage σ η ρ ω π} {p : Nat} (h : Seen l p) : Seen (l ++ [g]) p := by
  obtain ⟨i, g', h1, h2⟩ := h
  refine ⟨i, g', ?_, h2⟩
  rw [List.getElem?_append_left (List.getElem?_eq_some_iff.1 h1).1]
  exact h1

theorem nodup_of_cores {cs : List Nat} {av : List Reports.Report} {pend : List (Option Reports.Pending)} (hc : cs.Nodup)
    (hm : av.map some = cs.map fun c => (pend[c]?.bind id).map Reports.Pending.report)
    (hi : ∀ c p c' p', Reports.Spec.At pend c p → Reports.Spec.At pend c' p' → p.report.pkg = p'.report.pkg → c = c') : (av.map Reports.Report.pkg).Nodup := by
  induction cs generalizing av with
  | nil =>
    have : av = [] := by simpa using hm
    rw [this]; exact List.nodup_nil
  | cons c cs ih =>
    cases av with
    | nil => simp at hm
    | cons r av =>
      rw [List.map_cons, List.map_cons] at hm
      injection hm with h1 h2
      have hc' := List.nodup_cons.1 hc
      rw [List.map_cons, List.nodup_cons]
      refine ⟨?_, ih hc'.2 h2⟩
      intro hin
      obtain ⟨r', hr', e⟩ := List.mem_map.1 hin
      have hr2 : some r' ∈ av.map some := List.mem_map.2 ⟨r', hr', rfl⟩
      rw [h2] at hr2
      obtain ⟨c', hc2, e2⟩ := List.mem_map.1 hr2
      have at1 : ∀ {c : Nat} {r : Reports.Report}, some r = (pend[c]?.bind id).map Reports.Pending.report → ∃ p, Reports.Spec.At pend c p ∧ p.report = r := by
        intro c r h
        cases hp : pend[c]? with
        | none => rw [hp] at h; cases h
        | some o =>
          rw [hp] at h
          cases o with
          | none => cases h
          | some p =>
            simp only [Option.bind_some, id, Option.map_some] at h
            injection h with h
            exact ⟨p, hp, h.symm⟩
      obtain ⟨p, hp, ep⟩ := at1 h1
      obtain ⟨p', hp', ep'⟩ := at1 e2.symm
      have := hi c p c' p' hp hp' (by rw [ep, ep', e])
      rw [this] at hc'
      exact hc'.1 hc2

theorem apart_step {W : World σ η ρ ω π} {l : List (Stage σ η ρ ω π)} {g : Stage σ η ρ ω π} (hok : g.Ok W) (h : Apart l g.before)
    (hnew : ∀ gu ∈ g.blk.guarantees, ¬ Seen l gu.report.pkg) : Apart (l ++ [g]) (g.after W) := by
  obtain ⟨cs, hup, hcs, hm⟩ := Reports.C28_available hok.step
  obtain ⟨cs', hd⟩ := Reports.step_done hok.step
  have hrel := fun r => Reports.C28_released hok.step r
  have hpk := hd.pkgs
  have ea : availPkgs (l ++ [g]) = availPkgs l ++ g.parts.available.map Reports.Report.pkg := by
    unfold availPkgs
    rw [List.flatMap_append, List.flatMap_singleton]
  have hav : ∀ p ∈ g.parts.available.map Reports.Report.pkg, ∃ c q, c ∈ cs' ∧ Reports.Spec.At g.before.pending c q ∧ q.report.pkg = p := by
    intro p hp
    obtain ⟨r, hr, e⟩ := List.mem_map.1 hp
    obtain ⟨c, hc, q, hq, e2⟩ := hd.of_collected hr
    exact ⟨c, q, hc, Reports.removeAll_at hq, by rw [e2, e]⟩
  have hat : ∀ c p, Reports.Spec.At (g.after W).pending c p → (∃ gu ∈ g.blk.guarantees, gu.report = p.report ∧ p.report.core = c) ∨
      (Reports.Spec.At g.before.pending c p ∧ c ∉ cs') := by
    intro c p hp
    rcases hd.at_iff.1 hp with ⟨⟨gu, hg, e, ec⟩, _⟩ | h5
    · exact Or.inl ⟨gu, hg, e, ec⟩
    · obtain ⟨h6, h7, _⟩ := Reports.ddagger_at.1 h5
      exact Or.inr ⟨Reports.removeAll_at h6, h7⟩
  have hold : ∀ gu ∈ g.blk.guarantees, (∀ p ∈ availPkgs l, p ≠ gu.report.pkg) ∧ ∀ c p, Reports.Spec.At g.before.pending c p → p.report.pkg ≠ gu.report.pkg := by
    intro gu hgu
    exact ⟨fun p hp e => hnew gu hgu (e ▸ h.seenA p hp), fun c p hp e => hnew gu hgu (e ▸ h.seenP c p hp)⟩
  refine ⟨?_, ?_, ?_, ?_, ?_⟩
  · rw [ea, List.nodup_append]
    refine ⟨h.nodup, ?_, ?_⟩
    · refine nodup_of_cores (cs := cs) (pend := g.before.pending) ?_ hm h.inj
      exact (Reports.increasing_iff.1 hup).2
    · intro p hp q hq e
      obtain ⟨c, r, _, hr, er⟩ := hav q hq
      exact h.away c r hr (by rw [er, ← e]; exact hp)
  · intro c p hp hin
    rw [ea] at hin
    rcases hat c p hp with ⟨gu, hg, e, _⟩ | ⟨h6, h7⟩
    · rcases List.mem_append.1 hin with h8 | h8
      · exact (hold gu hg).1 _ h8 (by rw [e])
      · obtain ⟨c', q, _, hq, eq⟩ := hav _ h8
        exact (hold gu hg).2 c' q hq (by rw [eq, e])
    · rcases List.mem_append.1 hin with h8 | h8
      · exact h.away c p h6 h8
      · obtain ⟨c', q, hc, hq, eq⟩ := hav _ h8
        have := h.inj c' q c p hq h6 eq
        rw [this] at hc
        exact h7 hc
  · intro c p c' p' hp hp' e
    rcases hat c p hp with ⟨gu, hg, e1, ec⟩ | ⟨h6, _⟩
    · rcases hat c' p' hp' with ⟨gu', hg', e1', ec'⟩ | ⟨h6', _⟩
      · have : gu.report.pkg = gu'.report.pkg := by rw [e1, e1', e]
        have ei' := eq_of_map_nodup (f := fun g : Reports.Guarantee σ => g.report.pkg) hpk hg hg' this
        rw [← ec, ← ec', ← e1, ← e1', ei']
      · exact absurd (by rw [e1, e]) ((hold gu hg).2 c' p' h6').symm
    · rcases hat c' p' hp' with ⟨gu', hg', e1', ec'⟩ | ⟨h6', _⟩
      · exact absurd (by rw [e1', ← e]) ((hold gu' hg').2 c p h6)
      · exact h.inj c p c' p' h6 h6' e
  · intro p hp
    rw [ea] at hp
    rcases List.mem_append.1 hp with h8 | h8
    · exact (h.seenA p h8).snoc
    · obtain ⟨c', q, hc, hq, eq⟩ := hav _ h8
      rw [← eq]
      exact (h.seenP c' q hq).snoc
  · intro c p hp
    rcases hat c p hp with ⟨gu, hg, e1, ec⟩ | ⟨h6, _⟩
    · refine ⟨l.length, g, ?_, gu, hg, by rw [e1]⟩
      rw [List.getElem?_append_right (Nat.le_refl _), Nat.sub_self]; rfl
    · exact (h.seenP c p h6).snoc

theorem repOf_header {W : World σ η ρ ω π} {l : List (Stage σ η ρ ω π)} : (l.map (repOf W)).map (fun b => b.2.header) = l.map fun g => g.blk.header := by
  rw [List.map_map]; rfl

/-- A package is not guaranteed again. -/
theorem never_again {W : World σ η ρ ω π} {s0 s' : State η ρ ω} (hh : W.P.histLen ≠ 0) (h0 : s0.hist = []) {l' : List (Stage σ η ρ ω π)} {g : Stage σ η ρ ω π}
    (hl : Linked W s0 (l' ++ [g]) s') (hd : ((l' ++ [g]).map fun g => g.blk.header).Nodup)
    (ha : ∀ x ∈ l' ++ [g], ∀ a ∈ x.blk.guarantees, ∀ g' ∈ l' ++ [g], ∀ a' ∈ g'.blk.guarantees, a.report.pkg = a'.report.pkg → a.report.anchor = a'.report.anchor) :
    ∀ gu ∈ g.blk.guarantees, ¬ Seen l' gu.report.pkg := by
  rintro gu hgu ⟨i, gi, hgi, a, haa, e⟩
  have hr := linked_reports hl
  have li := (List.getElem?_eq_some_iff.1 hgi).1
  have hmem := List.mem_of_getElem? hgi
  refine Reports.C45_once hr hh (by rw [show (repSt s0).hist = s0.hist from rfl, h0]; exact Nat.zero_le _) ?_ (i := i) (j := l'.length) li
    (bi := repOf W gi) (bj := repOf W g) ?_ ?_ (g := a) (g' := gu) haa hgu ⟨e, ?_⟩
  · rw [show (repSt s0).hist = s0.hist from rfl, h0, List.map_nil, List.nil_append, repOf_header]
    exact hd
  · rw [List.getElem?_map, List.getElem?_append_left li, hgi]; rfl
  · rw [List.getElem?_map, List.getElem?_append_right (Nat.le_refl _), Nat.sub_self]; rfl
  · exact ha gi (List.mem_append_left _ hmem) a haa g (List.mem_append_right _ (List.mem_singleton.2 rfl)) gu hgu e

theorem apart_run {W : World σ η ρ ω π} {s0 : State η ρ ω} (hh : W.P.histLen ≠ 0) (h0 : s0.hist = []) (hp : ∀ c p, ¬ Reports.Spec.At s0.pending c p) :
    ∀ (n : Nat) (l : List (Stage σ η ρ ω π)) (s' : State η ρ ω), l.length = n → Linked W s0 l s' → (l.map fun g => g.blk.header).Nodup →
      (∀ g ∈ l, ∀ a ∈ g.blk.guarantees, ∀ g' ∈ l, ∀ a' ∈ g'.blk.guarantees, a.report.pkg = a'.report.pkg → a.report.anchor = a'.report.anchor) → Apart l s' := by
  intro n
  induction n with
  | zero =>
    intro l s' hn hl _ _
    have : l = [] := List.length_eq_zero_iff.1 hn
    subst this
    unfold Linked at hl
    subst hl
    exact ⟨List.nodup_nil, fun c p h => absurd h (hp c p), fun c p _ _ h => absurd h (hp c p), fun p hp => (by cases hp), fun c p h => absurd h (hp c p)⟩
  | succ n ih =>
    intro l s' hn hl hd ha
    rcases List.eq_nil_or_concat l with e | ⟨l', g, e⟩
    · rw [e] at hn; cases hn
    rw [List.concat_eq_append] at e
    subst e
    obtain ⟨h1, h2, h3⟩ := linked_snoc.1 hl
    have hn' : l'.length = n := by simpa using hn
    have hd' := hd
    rw [List.map_append, List.nodup_append] at hd'
    have hi := ih l' g.before hn' h1 hd'.1 (fun g hg a hga g' hg' a' hga' => ha g (List.mem_append_left _ hg) a hga g' (List.mem_append_left _ hg') a' hga')
    have hn := never_again hh h0 hl hd ha
    subst h3
    exact apart_step h2 hi hn

end Fastroll.Stf
