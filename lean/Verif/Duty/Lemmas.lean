import Verif.Duty.Spec
import Verif.Safrole.LemmasRun
import Verif.Chain.Lemmas2

/-! # Lemmas: the clock, predictions, authored blocks -/
namespace Fastroll.Duty
open Fastroll.Wire Fastroll.Duty.Paper
open Fastroll.Safrole (Par Heap Crypto VKey nextSealers sealerAt epochOf phaseOf)

/-! ## The clock -/

theorem nowSlot_none (t : Nat) : nowSlot t = none ↔ t < 1735732800000 := by
  unfold nowSlot secondsSince checkedSub era
  by_cases h : t / 1000 < 1735732800
  · rw [if_pos h]; simp; omega
  · rw [if_neg h, if_pos (by omega)]; simp; omega

theorem nowSlot_some {t : Nat} (h : 1735732800000 ≤ t) : nowSlot t = some ((t - 1735732800000) / 6000 % 2 ^ 32) := by
  unfold nowSlot secondsSince checkedSub era slotSecs
  rw [if_neg (by omega), if_pos (by omega)]
  have : (t / 1000 - 1735732800) / 6 = (t - 1735732800000) / 6000 := by omega
  simp only [Option.map_some, this]

theorem during_iff (n t : Nat) : During n t ↔ 1735732800000 ≤ t ∧ (t - 1735732800000) / 6000 = n := by
  unfold During; omega

theorem nowSlot_during {n t : Nat} (hn : n < 2 ^ 32) (h : During n t) : nowSlot t = some n := by
  obtain ⟨h1, h2⟩ := (during_iff n t).1 h
  rw [nowSlot_some h1, h2, Nat.mod_eq_of_lt hn]

theorem nowSlot_iff (n t : Nat) : nowSlot t = some n ↔ n < 2 ^ 32 ∧ ∃ k, During (n + k * 2 ^ 32) t := by
  constructor
  · intro h
    by_cases c : t < 1735732800000
    · rw [(nowSlot_none t).2 c] at h; cases h
    · rw [nowSlot_some (by omega)] at h
      simp only [Option.some.injEq] at h
      refine ⟨by omega, (t - 1735732800000) / 6000 / 2 ^ 32, ?_⟩
      rw [during_iff]
      refine ⟨by omega, ?_⟩
      have := Nat.div_add_mod ((t - 1735732800000) / 6000) (2 ^ 32)
      omega
  · rintro ⟨hn, k, h⟩
    rw [during_iff] at h
    rw [nowSlot_some h.1, h.2, Nat.add_mul_mod_self_right, Nat.mod_eq_of_lt hn]

theorem millisSince_some {t : Nat} (h : 1735732800000 ≤ t) : millisSince t = some (t - 1735732800000) := by
  unfold millisSince checkedSub eraMillis era
  rw [if_neg (by omega), if_pos (by omega)]

theorem millisSince_none {t : Nat} (h : t < 1735732800000) : millisSince t = none := by
  unfold millisSince eraMillis era
  rw [if_pos (by omega)]

theorem boundary_eq (t1 t2 m n : Nat) (h1 : millisSince t1 = some m) (h2 : nowSlot t2 = some n) :
    untilBoundary t1 t2 = if n * 6000 ≤ m then (if m - n * 6000 ≤ 6000 then some (6000 - (m - n * 6000)) else none) else none := by
  unfold untilBoundary checkedSub slotSecs
  rw [h1]
  dsimp only
  rw [h2]
  dsimp only
  rw [show n * 6 * 1000 = n * 6000 by omega]
  by_cases c : n * 6000 ≤ m
  · rw [if_pos c, if_pos c]
  · rw [if_neg c, if_neg c]

theorem untilBoundary_iff {t1 t2 : Nat} (h12 : t1 ≤ t2) (hw : t2 < 1735732800000 + 6000 * 2 ^ 32) (w : Nat) :
    untilBoundary t1 t2 = some w ↔ ∃ n, During n t1 ∧ During n t2 ∧ t1 + w = 1735732800000 + 6000 * (n + 1) := by
  by_cases c : t1 < 1735732800000
  · unfold untilBoundary
    rw [millisSince_none c]
    constructor
    · intro h; cases h
    · rintro ⟨n, ⟨h, _⟩, _⟩; omega
  · have hs := nowSlot_some (t := t2) (by omega)
    rw [Nat.mod_eq_of_lt (by omega)] at hs
    rw [boundary_eq t1 t2 _ _ (millisSince_some (by omega)) hs]
    generalize hn : (t2 - 1735732800000) / 6000 = n
    by_cases d : n * 6000 ≤ t1 - 1735732800000
    · rw [if_pos d, if_pos (by omega)]
      constructor
      · intro h
        cases h
        exact ⟨n, by unfold During; omega, by unfold During; omega, by omega⟩
      · rintro ⟨n', ⟨a, b⟩, ⟨c', d'⟩, e⟩
        have : n' = n := by omega
        subst this
        rw [Option.some.injEq]
        omega
    · rw [if_neg d]
      constructor
      · intro h; cases h
      · rintro ⟨n', ⟨a, b⟩, ⟨c', d'⟩, e⟩
        omega

/-- Ticks handled within their slots. -/
theorem handled_during : ∀ (ws : List Nat) (n : Nat), n + ws.length ≤ 2 ^ 32 → (∀ (i w : Nat), ws[i]? = some w → During (n + i) w) →
    handled ws = List.range' n ws.length := by
  intro ws
  induction ws with
  | nil => intro n _ _; rfl
  | cons w ws ih =>
    intro n hl h
    have h0 := h 0 w rfl
    simp only [List.length_cons] at hl
    have hs : nowSlot w = some n := nowSlot_during (by omega) h0
    unfold handled
    rw [List.filterMap_cons, hs]
    simp only [List.length_cons, List.range'_succ, List.cons.injEq, true_and]
    refine ih (n + 1) (by omega) ?_
    intro i w' hw
    have := h (i + 1) w' hw
    rw [show n + 1 + i = n + (i + 1) by omega]
    exact this

theorem handled_mono : ∀ (ws : List Nat), (∀ w ∈ ws, w < 1735732800000 + 6000 * 2 ^ 32) → ws.Pairwise (· ≤ ·) →
    (handled ws).Pairwise (· ≤ ·) := by
  intro ws hw hp
  unfold handled
  rw [List.pairwise_filterMap]
  refine List.Pairwise.imp_of_mem ?_ hp
  intro a b ha hb hab x hx y hy
  have ha' := hw a ha
  have hb' := hw b hb
  by_cases c : a < 1735732800000
  · rw [(nowSlot_none a).2 c] at hx; cases hx
  · rw [nowSlot_some (by omega)] at hx
    rw [nowSlot_some (by omega)] at hy
    simp only [Option.some.injEq] at hx hy
    rw [Nat.mod_eq_of_lt (by omega)] at hx hy
    omega

/-! ## Predictions -/

section
variable {κ ρ η : Type} [DecidableEq κ]

/-- What the header part of a block does to the parts that are predicted. -/
theorem header_parts {H : Heap} {P : Par} {C : Crypto κ ρ η} {s s' : Safrole.State κ ρ η} {b : Safrole.Blk κ η}
    (h : Safrole.header H P C s b = some s') :
    s.slot < b.slot ∧ s'.slot = b.slot ∧
    ((s.slot / P.epoch < b.slot / P.epoch ∧ s'.e2 = s.e1 ∧ s'.e3 = s.e2 ∧ s'.past = s.active ∧ s'.active = s.saf.pending ∧
        nextSealers H P C s.saf s.slot b.slot s.saf.pending s.e1 = some s'.saf.sealers) ∨
     (¬ s.slot / P.epoch < b.slot / P.epoch ∧ s'.e2 = s.e2 ∧ s'.e3 = s.e3 ∧ s'.past = s.past ∧ s'.active = s.active ∧
        s'.saf.sealers = s.saf.sealers)) := by
  have hb : Safrole.block H P C s b = some (Safrole.finish C s' b) := by
    unfold Safrole.block; rw [h]; rfl
  obtain ⟨a1, a2, a3, a4, a5⟩ := Safrole.block_some hb
  simp only [Safrole.finish, epochOf] at a2 a5
  refine ⟨a1, a2, ?_⟩
  rcases a5 with ⟨c, -, c1, c2, c3, c4, -, -, c5, -⟩ | ⟨c, -, c1, c2, c3, c4, -, -, c5, -⟩
  · exact .inl ⟨c, c1, c2, c3, c4, c5⟩
  · exact .inr ⟨by omega, c1, c2, c3, c4, c5⟩

theorem predict_header {H : Heap} {P : Par} {C : Crypto κ ρ η} {s s' : Safrole.State κ ρ η} {b : Safrole.Blk κ η}
    (h : Safrole.header H P C s b = some s') :
    predictActive P s b.slot = s'.active ∧ predictPast P s b.slot = s'.past ∧ predictEta3 P s b.slot = s'.e3 ∧
    predictSealer H P C s b.slot = sealerAt P s'.saf.sealers b.slot := by
  obtain ⟨-, -, hc⟩ := header_parts h
  unfold predictActive predictPast predictEta3 predictSealer progressed
  rcases hc with ⟨c, c1, c2, c3, c4, c5⟩ | ⟨c, c1, c2, c3, c4, c5⟩
  · simp only [c, decide_true, if_true, c5, c2, c3, c4, and_self]
  · simp only [c, decide_false, Bool.false_eq_true, if_false, c5, c2, c3, c4, and_self]

theorem sealerAt_some {P : Par} (hE : 0 < P.epoch) {l : Safrole.Sealers κ} (hl : l.length = P.epoch) (slot : Nat) :
    ∃ k, sealerAt P l slot = some k := by
  have := Nat.mod_lt slot hE
  cases l with
  | tickets l =>
    simp only [Safrole.Sealers.length] at hl
    unfold sealerAt
    simp only []
    rw [List.getElem?_eq_getElem (by omega)]
    exact ⟨_, rfl⟩
  | keys l =>
    simp only [Safrole.Sealers.length] at hl
    unfold sealerAt
    simp only []
    rw [List.getElem?_eq_getElem (by omega)]
    exact ⟨_, rfl⟩

/-- A well-formed state has a predicted sealer for every slot. -/
theorem predict_some (H : Heap) {P : Par} (C : Crypto κ ρ η) (hE : 0 < P.epoch) (hV : 0 < P.validators)
    {s : Safrole.State κ ρ η} (hw : Safrole.WF P s) (slot : Nat) : ∃ k, predictSealer H P C s slot = some k := by
  unfold predictSealer
  split
  · obtain ⟨sl, h⟩ := Safrole.nextSealers_some H C hE hV s.saf s.slot slot s.e1 hw.1
    rw [h]
    exact sealerAt_some hE (Safrole.nextSealers_length h) slot
  · exact sealerAt_some hE hw.2.2.2.2.2 slot

/-- The fallback series, slot by slot. -/
theorem fallback_at {P : Par} (hE : 0 < P.epoch) {word : Nat → Nat} {set : List (VKey κ)} {l : List κ}
    (h : Safrole.fallbackKeys P word set = some l) (slot : Nat) (k : κ) :
    sealerAt P (.keys l) slot = some (.key k) ↔ ∃ v, set[word (slot % P.epoch) % P.validators]? = some v ∧ k = v.bander := by
  have hm := (Safrole.mapM_length _ _ h)
  have hlt := Nat.mod_lt slot hE
  unfold sealerAt
  simp only []
  have hlen : l.length = P.epoch := by simpa using hm.1
  obtain ⟨x, ha, hb⟩ := hm.2 (slot % P.epoch) (slot % P.epoch) (List.getElem?_range (by omega))
  rw [hb]
  simp only [Option.map_some, Option.some.injEq, Safrole.Sealer.key.injEq]
  cases hs : set[word (slot % P.epoch) % P.validators]? with
  | none => rw [hs] at ha; cases ha
  | some v =>
    rw [hs] at ha
    simp only [Option.map_some, Option.some.injEq] at ha
    simp only [Option.some.injEq, exists_eq_left']
    rw [← ha]
    exact eq_comm
end

end Fastroll.Duty
