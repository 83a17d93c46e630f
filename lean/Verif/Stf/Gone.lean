import Verif.Stf.Trace
/-! What leaves its core without becoming available is never accumulated. -/
namespace Fastroll.Stf
open Fastroll.Safrole (VKey)
variable {σ η ρ ω π : Type} {W : World σ η ρ ω π} {g : Stage σ η ρ ω π}

theorem pending_cases (h : g.Ok W) {c : Nat} {p : Reports.Pending} (hp : Reports.Spec.At (g.after W).pending c p) :
    (∃ gu ∈ g.blk.guarantees, gu.report = p.report) ∨ Reports.Spec.At g.before.pending c p := by
  obtain ⟨cs', hd⟩ := Reports.step_done h.step
  rcases hd.at_iff.1 hp with ⟨⟨gu, hg, e, _⟩, _⟩ | h5
  · exact Or.inl ⟨gu, hg, e⟩
  · exact Or.inr (Reports.removeAll_at (Reports.ddagger_at.1 h5).1)

theorem availPkgs_snoc {l : List (Stage σ η ρ ω π)} : availPkgs (l ++ [g]) = availPkgs l ++ g.parts.available.map Reports.Report.pkg := by
  unfold availPkgs
  rw [List.flatMap_append, List.flatMap_singleton]

/-- A package that was guaranteed, is not pending and was never available. -/
structure Dead (l : List (Stage σ η ρ ω π)) (s : State η ρ ω) (k : Nat) : Prop where
  seen : Seen l k
  pending : ∀ c p, Reports.Spec.At s.pending c p → p.report.pkg ≠ k
  available : k ∉ availPkgs l

theorem dead_step {l : List (Stage σ η ρ ω π)} {k : Nat} (hok : g.Ok W) (h : Dead l g.before k) (hnew : ∀ gu ∈ g.blk.guarantees, ¬ Seen l gu.report.pkg) : Dead (l ++ [g]) (g.after W) k := by
  refine ⟨h.seen.snoc, ?_, ?_⟩
  · intro c p hp e
    rcases pending_cases hok hp with ⟨gu, hg, er⟩ | h2
    · exact hnew gu hg (by rw [er, e]; exact h.seen)
    · exact h.pending c p h2 e
  · rw [availPkgs_snoc]
    intro hm
    rcases List.mem_append.1 hm with h1 | h1
    · exact h.available h1
    · obtain ⟨r, hr, e⟩ := List.mem_map.1 h1
      obtain ⟨c, p, ha, ep, _⟩ := (Reports.C28_released hok.step r).1 hr
      exact h.pending c p ha (by rw [ep, e])

theorem dead_run {s0 : State η ρ ω} (hh : W.P.histLen ≠ 0) (h0 : s0.hist = []) {k : Nat} : ∀ (m l : List (Stage σ η ρ ω π)) (t s' : State η ρ ω),
    Linked W s0 l t → Linked W t m s' → ((l ++ m).map fun g => g.blk.header).Nodup →
      (∀ g ∈ l ++ m, ∀ a ∈ g.blk.guarantees, ∀ g' ∈ l ++ m, ∀ a' ∈ g'.blk.guarantees, a.report.pkg = a'.report.pkg → a.report.anchor = a'.report.anchor) →
      Dead l t k → Dead (l ++ m) s' k := by
  intro m
  induction m with
  | nil =>
    intro l t s' _ h2 _ _ h3
    unfold Linked at h2
    rw [List.append_nil, ← h2]; exact h3
  | cons g m ih =>
    intro l t s' h1 h2 hd ha h3
    obtain ⟨e, hok, hl⟩ := h2
    subst e
    have e1 : l ++ g :: m = (l ++ [g]) ++ m := by rw [List.append_assoc]; rfl
    rw [e1] at hd ha ⊢
    have hl1 : Linked W s0 (l ++ [g]) (g.after W) := linked_snoc.2 ⟨h1, hok, rfl⟩
    have hd1 : ((l ++ [g]).map fun g => g.blk.header).Nodup := by
      rw [List.map_append (l₂ := m), List.nodup_append] at hd
      exact hd.1
    refine ih _ _ _ hl1 hl hd ha (dead_step hok h3 (never_again hh h0 hl1 hd1 ?_))
    intro x hx a hxa y hy b hyb
    exact ha x (List.mem_append_left _ hx) a hxa y (List.mem_append_left _ hy) b hyb

/-- The start: pending at a core that is not assured, and gone after the block. -/
theorem dead_start {l : List (Stage σ η ρ ω π)} (hok : g.Ok W) (h : Apart l g.before) (hnew : ∀ gu ∈ g.blk.guarantees, ¬ Seen l gu.report.pkg) {c : Nat} {p : Reports.Pending}
    (hp : Reports.Spec.At g.before.pending c p) (hq : ¬ 2 * W.P.V < 3 * (Reports.Spec.assurers g.blk.assurances c).length)
    (hn : ¬ Reports.Spec.At (g.after W).pending c p) : Dead (l ++ [g]) (g.after W) p.report.pkg := by
  have hs := h.seenP c p hp
  refine ⟨hs.snoc, ?_, ?_⟩
  · intro c' p' hp' e
    rcases pending_cases hok hp' with ⟨gu, hg, er⟩ | h2
    · exact hnew gu hg (by rw [er, e]; exact hs)
    · have := h.inj c' p' c p h2 hp e
      subst this
      unfold Reports.Spec.At at h2 hp
      rw [h2] at hp
      injection hp with hp; injection hp with hp
      subst hp
      exact hn hp'
  · rw [availPkgs_snoc]
    intro hm
    rcases List.mem_append.1 hm with h1 | h1
    · exact h.away c p hp h1
    · obtain ⟨r, hr, e⟩ := List.mem_map.1 h1
      obtain ⟨c', p', ha, ep, _, hq'⟩ := (Reports.C28_released hok.step r).1 hr
      have := h.inj c' p' c p ha hp (by rw [ep, e])
      subst this
      exact hq hq'

theorem fixed_stages {l : List (Stage σ η ρ ω π)} {bs : Spec.Blocks σ η π} (e : l.map Stage.input = bs) (h : Spec.AnchorFixed bs) :
    ∀ g ∈ l, ∀ a ∈ g.blk.guarantees, ∀ g' ∈ l, ∀ a' ∈ g'.blk.guarantees, a.report.pkg = a'.report.pkg → a.report.anchor = a'.report.anchor := by
  intro g hg a ha g' hg' a' ha'
  exact h g.input (by rw [← e]; exact List.mem_map.2 ⟨g, hg, rfl⟩) a ha g'.input (by rw [← e]; exact List.mem_map.2 ⟨g', hg', rfl⟩) a' ha'

theorem headers_stages {l : List (Stage σ η ρ ω π)} {bs : Spec.Blocks σ η π} (e : l.map Stage.input = bs) (h : (bs.map fun b => b.2.header).Nodup) :
    (l.map fun g => g.blk.header).Nodup := by
  rw [← e, List.map_map] at h
  exact h

end Fastroll.Stf
