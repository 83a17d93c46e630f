import Verif.Stf.Bridge
import Verif.Acc.Lemmas3
import Verif.Reports.Props
import Verif.Judge.Lemmas
/-! A chain of blocks with everything each of them computes. -/
namespace Fastroll.Stf
open Fastroll.Safrole (VKey)
variable {σ η ρ ω π : Type}

structure Stage (σ η ρ ω π : Type) where
  anc : Option (Nat → Nat → Bool)
  blk : Blk σ η π
  before : State η ρ ω
  mid : State η ρ ω
  judged : Judge.Disputes
  saf : Safrole.Saf Nat ρ
  new : List Safrole.Ticket
  parts : Parts ω

def Stage.after (W : World σ η ρ ω π) (g : Stage σ η ρ ω π) : State η ρ ω := fin W (afterPost W g.before g.mid g.blk g.parts) g.blk
def Stage.acc (g : Stage σ η ρ ω π) : List Acc.Report := accumulated g.mid g.parts
def Stage.Ok (W : World σ η ρ ω π) (g : Stage σ η ρ ω π) : Prop := Steps W g.anc g.before g.blk g.mid g.judged g.saf g.new g.parts
def Stage.input (g : Stage σ η ρ ω π) : Option (Nat → Nat → Bool) × Blk σ η π := (g.anc, g.blk)

def Linked (W : World σ η ρ ω π) : State η ρ ω → List (Stage σ η ρ ω π) → State η ρ ω → Prop
  | s, [], s' => s = s'
  | s, g :: l, s' => g.before = s ∧ g.Ok W ∧ Linked W (g.after W) l s'

theorem Stage.Ok.block {W : World σ η ρ ω π} {g : Stage σ η ρ ω π} (h : g.Ok W) : block W g.anc g.before g.blk = .ok (g.after W, g.acc) :=
  block_ok.2 ⟨g.mid, g.judged, g.saf, g.new, g.parts, h, rfl, rfl⟩

theorem run_stages {W : World σ η ρ ω π} {bs : List (Option (Nat → Nat → Bool) × Blk σ η π)} {s s' : State η ρ ω} {accs : List (List Acc.Report)} :
    run W bs s = .ok (s', accs) ↔ ∃ l, Linked W s l s' ∧ l.map Stage.input = bs ∧ l.map Stage.acc = accs := by
  induction bs generalizing s accs with
  | nil =>
    constructor
    · intro h
      unfold run at h
      injection h with h
      injection h with h1 h2
      exact ⟨[], h1, rfl, h2⟩
    · rintro ⟨l, h, e, e2⟩
      have : l = [] := List.map_eq_nil_iff.1 e
      subst this
      unfold Linked at h
      rw [← h, ← e2]; rfl
  | cons b bs ih =>
    constructor
    · intro h
      unfold run at h
      split at h
      · cases h
      rename_i s1 acc e1
      split at h
      · cases h
      rename_i s2 accs2 e2
      injection h with h
      injection h with h1 h2
      subst h1; subst h2
      obtain ⟨m, j, saf, new, x, hx, ea, eb⟩ := block_ok.1 e1
      obtain ⟨l, hl, el, el2⟩ := ih.1 e2
      refine ⟨⟨b.1, b.2, s, m, j, saf, new, x⟩ :: l, ⟨rfl, hx, ?_⟩, ?_, ?_⟩
      · rw [ea] at hl; exact hl
      · rw [List.map_cons, el]; rfl
      · rw [List.map_cons, el2, eb]; rfl
    · rintro ⟨l, h, e, e2⟩
      cases l with
      | nil => cases e
      | cons g l =>
        rw [List.map_cons] at e e2
        injection e with ea eb
        obtain ⟨h1, h2, h3⟩ := h
        unfold run
        have hb := h2.block
        rw [h1] at hb
        rw [← ea]
        show (match Stf.block W g.anc s g.blk with | .error e => _ | .ok (s, acc) => _) = _
        rw [hb]
        dsimp only
        rw [ih.2 ⟨l, h3, eb, rfl⟩, ← e2]

theorem linked_append {W : World σ η ρ ω π} {l m : List (Stage σ η ρ ω π)} {s s' : State η ρ ω} :
    Linked W s (l ++ m) s' ↔ ∃ t, Linked W s l t ∧ Linked W t m s' := by
  induction l generalizing s with
  | nil =>
    constructor
    · intro h; exact ⟨s, rfl, h⟩
    · rintro ⟨t, h1, h2⟩
      unfold Linked at h1
      rw [h1]; exact h2
  | cons g l ih =>
    constructor
    · rintro ⟨h1, h2, h3⟩
      obtain ⟨t, h4, h5⟩ := ih.1 h3
      exact ⟨t, ⟨h1, h2, h4⟩, h5⟩
    · rintro ⟨t, ⟨h1, h2, h3⟩, h4⟩
      exact ⟨h1, h2, ih.2 ⟨t, h3, h4⟩⟩

theorem linked_at {W : World σ η ρ ω π} {l : List (Stage σ η ρ ω π)} {s s' : State η ρ ω} (h : Linked W s l s') {i : Nat} {g : Stage σ η ρ ω π}
    (hi : l[i]? = some g) : Linked W s (l.take i) g.before ∧ g.Ok W ∧ Linked W (g.after W) (l.drop (i + 1)) s' := by
  obtain ⟨hl, hg⟩ := List.getElem?_eq_some_iff.1 hi
  have e : l = l.take i ++ g :: l.drop (i + 1) := by
    rw [← hg, List.getElem_cons_drop, List.take_append_drop]
  rw [e] at h
  obtain ⟨t, h1, h2, h3, h4⟩ := linked_append.1 h
  refine ⟨?_, h3, h4⟩
  rw [h2]; exact h1

theorem linked_snoc {W : World σ η ρ ω π} {l : List (Stage σ η ρ ω π)} {g : Stage σ η ρ ω π} {s s' : State η ρ ω} :
    Linked W s (l ++ [g]) s' ↔ Linked W s l g.before ∧ g.Ok W ∧ g.after W = s' := by
  rw [linked_append]
  constructor
  · rintro ⟨t, h1, h2, h3, h4⟩
    refine ⟨?_, h3, h4⟩
    rw [h2]; exact h1
  · rintro ⟨h1, h2, h3⟩
    exact ⟨_, h1, rfl, h2, h3⟩

/-- Prefixes of an accepted chain are accepted. -/
theorem run_take {W : World σ η ρ ω π} {bs : List (Option (Nat → Nat → Bool) × Blk σ η π)} {s s' : State η ρ ω} {accs : List (List Acc.Report)}
    (h : run W bs s = .ok (s', accs)) (n : Nat) : ∃ t, run W (bs.take n) s = .ok (t, accs.take n) := by
  obtain ⟨l, hl, e1, e2⟩ := run_stages.1 h
  rw [← List.take_append_drop n l] at hl
  obtain ⟨t, h1, _⟩ := linked_append.1 hl
  exact ⟨t, run_stages.2 ⟨l.take n, h1, by rw [← e1, List.map_take], by rw [← e2, List.map_take]⟩⟩

/-! ## The chains of the areas -/

def repOf (W : World σ η ρ ω π) (g : Stage σ η ρ ω π) : Reports.Env σ × Reports.Block σ := (fullEnv W g.anc g.before g.mid (g.after W), repBlk g.blk)
def accOf (g : Stage σ η ρ ω π) : Acc.Block := ⟨g.parts.available.map sched, g.blk.slot, g.parts.out.count⟩

theorem Stage.Ok.step {W : World σ η ρ ω π} {g : Stage σ η ρ ω π} (h : g.Ok W) :
    Reports.step W.P (repOf W g).1 (repSt g.before) (repOf W g).2 = .ok (repSt (g.after W), g.parts.available, g.parts.keys) := Steps.reports h

theorem linked_reports {W : World σ η ρ ω π} {l : List (Stage σ η ρ ω π)} {s s' : State η ρ ω} (h : Linked W s l s') :
    Reports.run W.P (l.map (repOf W)) (repSt s) = .ok (repSt s') := by
  induction l generalizing s with
  | nil => unfold Linked at h; rw [h]; rfl
  | cons g l ih =>
    obtain ⟨h1, h2, h3⟩ := h
    rw [List.map_cons]
    unfold Reports.run
    rw [← h1, h2.step]
    exact ih h3

theorem linked_acc {W : World σ η ρ ω π} {l : List (Stage σ η ρ ω π)} {s s' : State η ρ ω} (h : Linked W s l s') :
    Acc.runBlocks (accSt s) (l.map accOf) = some (accSt s', (l.map Stage.acc).flatten) := by
  induction l generalizing s with
  | nil => unfold Linked at h; rw [h]; rfl
  | cons g l ih =>
    obtain ⟨h1, h2, h3⟩ := h
    rw [List.map_cons]
    unfold Acc.runBlocks
    have := Steps.accumulation h2
    rw [h1] at this
    show (match Acc.blockStep (accSt s) (g.parts.available.map sched) g.blk.slot g.parts.out.count with | none => none | some (s', done) => _) = _
    rw [this]
    dsimp only
    have e : fin W (afterPost W s g.mid g.blk g.parts) g.blk = g.after W := by unfold Stage.after; rw [h1]
    rw [e, ih h3]
    rfl

theorem Stage.after_slot {W : World σ η ρ ω π} {g : Stage σ η ρ ω π} (h : g.Ok W) : (g.after W).slot = g.blk.slot := by
  have e : (g.after W).slot = g.mid.slot := rfl
  rw [e, h.mid]; rfl

theorem linked_increasing {W : World σ η ρ ω π} {l : List (Stage σ η ρ ω π)} {s s' : State η ρ ω} (h : Linked W s l s') (h0 : ∀ g ∈ l, 0 < g.blk.slot) :
    Acc.Increasing s.slot (l.map accOf) := by
  induction l generalizing s with
  | nil => trivial
  | cons g l ih =>
    obtain ⟨h1, h2, h3⟩ := h
    have hp := h0 g (List.mem_cons_self ..)
    have := ih h3 (fun g hg => h0 g (List.mem_cons_of_mem _ hg))
    rw [Stage.after_slot h2] at this
    refine ⟨?_, this⟩
    have hs := h2.pre.slot
    rw [h1] at hs
    rcases hs with hs | hs
    · omega
    · exact hs

/-! ## Where pending and available reports come from -/

theorem pending_from {W : World σ η ρ ω π} {l : List (Stage σ η ρ ω π)} {s s' : State η ρ ω} (h : Linked W s l s') {c : Nat} {p : Reports.Pending}
    (hp : Reports.Spec.At s'.pending c p) :
    Reports.Spec.At s.pending c p ∨ ∃ (i : Nat) (g : Stage σ η ρ ω π), l[i]? = some g ∧ ∃ gu ∈ g.blk.guarantees, gu.report = p.report ∧ p.report.core = c := by
  induction l generalizing s with
  | nil => unfold Linked at h; rw [h]; exact Or.inl hp
  | cons g l ih =>
    obtain ⟨h1, h2, h3⟩ := h
    rcases ih h3 with h4 | ⟨i, g', h4, h5⟩
    · obtain ⟨cs, hd⟩ := Reports.step_done h2.step
      rcases hd.at_iff.1 h4 with ⟨⟨gu, hg, e, ec⟩, _⟩ | h5
      · exact Or.inr ⟨0, g, rfl, gu, hg, e, ec⟩
      · left
        have := (Reports.ddagger_at.1 h5).1
        have := Reports.removeAll_at this
        rw [h1] at this
        exact this
    · exact Or.inr ⟨i + 1, g', h4, h5⟩

/-- A report available at stage `j` was guaranteed at an earlier stage. -/
theorem available_from {W : World σ η ρ ω π} {l : List (Stage σ η ρ ω π)} {s s' : State η ρ ω} (h : Linked W s l s') (h0 : ∀ c p, ¬ Reports.Spec.At s.pending c p)
    {j : Nat} {g : Stage σ η ρ ω π} (hj : l[j]? = some g) {r : Reports.Report} (hr : r ∈ g.parts.available) :
    (2 * W.P.V < 3 * (Reports.Spec.assurers g.blk.assurances r.core).length) ∧ ∃ (i : Nat) (gi : Stage σ η ρ ω π), i < j ∧ l[i]? = some gi ∧ ∃ gu ∈ gi.blk.guarantees, gu.report = r := by
  obtain ⟨h1, h2, _⟩ := linked_at h hj
  obtain ⟨c, p, ha, e, _, hq⟩ := (Reports.C28_released h2.step r).1 hr
  rcases pending_from h1 ha with h3 | ⟨i, gi, h3, gu, hg, e2, ec⟩
  · exact absurd h3 (h0 c p)
  · rw [List.getElem?_take] at h3
    split at h3
    · rename_i hlt
      rw [e] at ec
      refine ⟨by rw [ec]; exact hq, i, gi, hlt, h3, gu, hg, by rw [e2, e]⟩
    · cases h3

end Fastroll.Stf
