import Verif.Svc.ApplyModel
import Verif.Svc.LemmasBox

/-! # Lemmas: applying a good sandbox gives its view -/
namespace Fastroll.Svc

theorem applyEntry_good {α : Type} {e : Entry α} {c : Option α} (h1 : e.status = .clean → e.value = c)
    (h2 : e.status = .removed ↔ e.value = none) (h3 : e.status = .added ↔ c = none) : applyEntry e c = some e.value := by
  unfold applyEntry
  cases hs : e.status with
  | clean => simp only; rw [h1 hs]
  | added =>
    have hc := h3.1 hs
    cases hv : e.value with
    | none => have := h2.2 hv; rw [hs] at this; cases this
    | some v => rw [hc]
  | updated =>
    cases hv : e.value with
    | none => have := h2.2 hv; rw [hs] at this; cases this
    | some v =>
      cases c with
      | none => have := h3.2 rfl; rw [hs] at this; cases this
      | some w => rfl
  | removed =>
    rw [h2.1 hs]
    cases c with
    | none => have := h3.2 rfl; rw [hs] at this; cases this
    | some w => rfl

theorem applyAt_good {κ α : Type} {m : κ → Option (Entry α)} {g : κ → Option α} (H : MapGood m g) {gone : Bool}
    (hg : gone = true → ∀ k, lay m g k = none) (k : κ) : applyAt gone m g k = some (lay m g k) := by
  unfold applyAt
  cases hk : m k with
  | none => simp only [lay, hk]
  | some e =>
    obtain ⟨h1, h2, h3⟩ := H k e hk
    have ha : applyEntry e (g k) = some e.value := applyEntry_good (fun c => by
      rw [← h1]; simp [Entry.cleanVal, c]) h2 h3
    have hl : lay m g k = e.value := by simp only [lay, hk]
    simp only
    split
    · rename_i c
      simp only [Bool.and_eq_true, decide_eq_true_eq] at c
      have := hg c.1 k
      rw [hl] at this
      exact absurd (h2.2 this) c.2
    · rw [hl]; exact ha

theorem apply_view {g : Global} {D : Nat → Prop} {host : Nat} {bs : Boxes} (I : Inv g D host bs)
    (O : (view g bs).NoOrphans) (s : Nat) :
    applyMeta g bs s = some ((view g bs).metas s) ∧
    (∀ k, applyStorage g bs s k = some ((view g bs).storage s k)) ∧
    (∀ k, applyPreimages g bs s k = some ((view g bs).preimages s k)) ∧
    (∀ k, applyLookups g bs s k = some ((view g bs).lookups s k)) := by
  cases hb : boxGet bs s with
  | none => simp only [applyMeta, applyStorage, applyPreimages, applyLookups, view, hb]; simp
  | some b =>
    have B := I.boxes s b hb
    have hv := view_metas_some (g := g) hb
    have hgone : b.gone = true → (view g bs).metas s = none := by
      intro h; rw [hv]; exact B.info.1 (by simpa [Box.gone] using h)
    simp only [applyMeta, applyStorage, applyPreimages, applyLookups, hb]
    refine ⟨?_, ?_, ?_, ?_⟩
    · rw [hv]; exact applyEntry_good B.idle B.info B.fresh
    · intro k; rw [view_storage_some hb]
      exact applyAt_good B.storage (fun h k => by
        have := (O s (hgone h)).1 k; rw [view_storage_some hb] at this; exact this) k
    · intro k; rw [view_preimages_some hb]
      exact applyAt_good B.preimages (fun h k => by
        have := (O s (hgone h)).2.1 k; rw [view_preimages_some hb] at this; exact this) k
    · intro k; rw [view_lookups_some hb]
      exact applyAt_good B.lookups (fun h k => by
        have := (O s (hgone h)).2.2 k; rw [view_lookups_some hb] at this; exact this) k

end Fastroll.Svc
