import Verif.Svc.Spec

/-! # Lemmas: the sandbox operations are the plain-map operations on the view -/
namespace Fastroll.Svc

theorem upd_same {κ α : Type} [DecidableEq κ] (f : κ → Option α) (k : κ) : upd f k (f k) = f := by
  funext k'; unfold upd; split
  · next h => rw [h]
  · rfl

theorem upd2_same {κ α : Type} [DecidableEq κ] (f : Nat → κ → Option α) (s : Nat) (k : κ) :
    upd2 f s k (f s k) = f := by
  funext s'; unfold upd2; split
  · next h => rw [h, upd_same]
  · rfl

section entry
variable {κ α : Type} [DecidableEq κ] (m : κ → Option (Entry α)) (g : κ → Option α) (k : κ)

theorem fromClean_good (v : α) : (Entry.fromClean v).Good (some v) := by
  refine ⟨?_, ?_, ?_⟩ <;> simp [Entry.cleanVal, Entry.fromClean]

theorem loadEntry_fst : ((loadEntry m g k).1.bind (·.value)) = lay m g k := by
  unfold loadEntry lay
  cases h : m k with
  | some e => rfl
  | none => cases h2 : g k <;> rfl

theorem loadEntry_lay : lay (loadEntry m g k).2 g = lay m g := by
  unfold loadEntry
  cases h : m k with
  | some e => rfl
  | none =>
    cases h2 : g k with
    | none => rfl
    | some v =>
      funext k'; simp only [lay, upd]
      by_cases c : k' = k
      · subst c; rw [if_pos rfl, h, h2]; rfl
      · rw [if_neg c]

theorem loadEntry_good (H : MapGood m g) : MapGood (loadEntry m g k).2 g := by
  unfold loadEntry
  cases h : m k with
  | some e => exact H
  | none =>
    cases h2 : g k with
    | none => exact H
    | some v =>
      intro k' e he
      simp only [upd] at he
      by_cases c : k' = k
      · subst c; rw [if_pos rfl] at he; cases he; rw [h2]; exact fromClean_good v
      · rw [if_neg c] at he; exact H k' e he

theorem loadEntry_clean (H : MapGood m g) : ((loadEntry m g k).1.bind (·.cleanVal)) = g k := by
  unfold loadEntry
  cases h : m k with
  | some e => exact (H k e h).1
  | none => cases h2 : g k <;> rfl

theorem getEntry_eq : getEntry m g k = (lay m g k, (loadEntry m g k).2) := by
  rw [← loadEntry_fst]; unfold getEntry
  cases h : loadEntry m g k with
  | mk a b => cases a <;> rfl

theorem getClean_eq (H : MapGood m g) : getClean m g k = (g k, (loadEntry m g k).2) := by
  have hc := loadEntry_clean m g k H
  unfold getClean
  cases h : loadEntry m g k with
  | mk a b =>
    rw [h] at hc
    cases a with
    | none => rw [← hc]; rfl
    | some e => rw [← hc]; rfl

theorem lay_upd (e : Entry α) : lay (upd m k (some e)) g = upd (lay m g) k e.value := by
  funext k'; simp only [lay, upd]; by_cases c : k' = k <;> simp [c]

theorem good_upd (H : MapGood m g) (e : Entry α) (he : e.Good (g k)) : MapGood (upd m k (some e)) g := by
  intro k' e' h
  simp only [upd] at h
  by_cases c : k' = k
  · subst c; rw [if_pos rfl] at h; cases h; exact he
  · rw [if_neg c] at h; exact H k' e' h

theorem insertEntry_lay (H : MapGood m g) (v : α) :
    lay (insertEntry m g k v) g = upd (lay m g) k (some v) := by
  unfold insertEntry
  rw [getClean_eq m g k H, ← loadEntry_lay m g k]
  cases h : g k with
  | none => exact lay_upd _ _ _ _
  | some c => exact lay_upd _ _ _ _

theorem insertEntry_good (H : MapGood m g) (v : α) : MapGood (insertEntry m g k v) g := by
  unfold insertEntry
  rw [getClean_eq m g k H]
  cases h : g k with
  | none =>
    refine good_upd _ _ _ (loadEntry_good m g k H) _ ?_
    rw [h]; refine ⟨?_, ?_, ?_⟩ <;> simp [Entry.cleanVal, Entry.newAdded]
  | some c =>
    refine good_upd _ _ _ (loadEntry_good m g k H) _ ?_
    rw [h]; refine ⟨?_, ?_, ?_⟩ <;> simp [Entry.cleanVal, Entry.newUpdated]

theorem removeEntry_lay (H : MapGood m g) : lay (removeEntry m g k) g = upd (lay m g) k none := by
  unfold removeEntry
  rw [getEntry_eq]
  cases hv : lay m g k with
  | none => show lay (loadEntry m g k).2 g = _; rw [loadEntry_lay, ← hv, upd_same]
  | some v =>
    show lay (match getClean (loadEntry m g k).2 g k with
      | (some c, m) => upd m k (some (Entry.newRemoved c))
      | (none, m) => upd m k none) g = _
    have H' := loadEntry_good m g k H
    rw [getClean_eq _ g k H', ← loadEntry_lay m g k, ← loadEntry_lay (loadEntry m g k).2 g k]
    cases h : g k with
    | some c => exact lay_upd _ _ _ _
    | none =>
      funext k'; simp only [lay, upd]
      by_cases c : k' = k <;> simp [c, h]

theorem removeEntry_good (H : MapGood m g) : MapGood (removeEntry m g k) g := by
  unfold removeEntry
  rw [getEntry_eq]
  have H' := loadEntry_good m g k H
  cases hv : lay m g k with
  | none => exact H'
  | some v =>
    show MapGood (match getClean (loadEntry m g k).2 g k with
      | (some c, m) => upd m k (some (Entry.newRemoved c))
      | (none, m) => upd m k none) g
    rw [getClean_eq _ g k H']
    have H'' := loadEntry_good _ g k H'
    cases h : g k with
    | some c =>
      refine good_upd _ _ _ H'' _ ?_
      rw [h]; refine ⟨?_, ?_, ?_⟩ <;> simp [Entry.cleanVal, Entry.newRemoved]
    | none =>
      intro k' e' he
      simp only [upd] at he
      by_cases c : k' = k
      · rw [if_pos c] at he; cases he
      · rw [if_neg c] at he; exact H'' k' e' he

end entry

/-! ## The map of accounts -/

theorem boxGet_set (bs : Boxes) (s : Nat) (b : Box) (s' : Nat) :
    boxGet (boxSet bs s b) s' = if s' = s then some b else boxGet bs s' := by
  induction bs with
  | nil => simp only [boxSet, boxGet, eq_comm]
  | cons p bs ih =>
    obtain ⟨k, b'⟩ := p
    simp only [boxSet]
    by_cases c : k = s
    · rw [if_pos c]; simp only [boxGet]
      by_cases d : s' = s
      · simp [d]
      · have : ¬ s = s' := fun h => d h.symm
        have : ¬ k = s' := fun h => d (h ▸ c)
        simp [*]
    · rw [if_neg c]; simp only [boxGet, ih]
      by_cases d : k = s'
      · have : ¬ s' = s := fun h => c (d.trans h)
        simp [*]
      · simp [d]

theorem boxGet_erase (bs : Boxes) (s s' : Nat) :
    boxGet (boxErase bs s) s' = if s' = s then none else boxGet bs s' := by
  induction bs with
  | nil => simp [boxErase, boxGet]
  | cons p bs ih =>
    obtain ⟨k, b'⟩ := p
    simp only [boxErase]
    by_cases c : k = s
    · rw [if_pos c, ih]; simp only [boxGet]
      by_cases d : s' = s
      · simp [d]
      · have : ¬ k = s' := fun h => d (h ▸ c)
        rw [if_neg d, if_neg d, if_neg this]
    · rw [if_neg c]; simp only [boxGet, ih]
      by_cases d : k = s'
      · have : ¬ s' = s := fun h => c (d.trans h)
        simp [*]
      · simp [d]

theorem Global.ext {a b : Global} (h1 : a.metas = b.metas) (h2 : a.storage = b.storage)
    (h3 : a.preimages = b.preimages) (h4 : a.lookups = b.lookups) : a = b := by
  cases a; cases b; simp_all

/-- The view after one box is replaced. -/
theorem view_set (g : Global) (bs : Boxes) (s : Nat) (b : Box) :
    view g (boxSet bs s b) =
      { metas := upd (view g bs).metas s b.info.value,
        storage := fun s' => if s' = s then lay b.storage (g.storage s) else (view g bs).storage s',
        preimages := fun s' => if s' = s then lay b.preimages (g.preimages s) else (view g bs).preimages s',
        lookups := fun s' => if s' = s then lay b.lookups (g.lookups s) else (view g bs).lookups s' } := by
  apply Global.ext <;> funext s' <;> simp only [view, upd, boxGet_set] <;>
    by_cases c : s' = s <;> simp [c]

theorem view_metas_some {g : Global} {bs : Boxes} {s : Nat} {b : Box} (h : boxGet bs s = some b) :
    (view g bs).metas s = b.info.value := by simp only [view, h]
theorem view_storage_some {g : Global} {bs : Boxes} {s : Nat} {b : Box} (h : boxGet bs s = some b) :
    (view g bs).storage s = lay b.storage (g.storage s) := by simp only [view, h]
theorem view_preimages_some {g : Global} {bs : Boxes} {s : Nat} {b : Box} (h : boxGet bs s = some b) :
    (view g bs).preimages s = lay b.preimages (g.preimages s) := by simp only [view, h]
theorem view_lookups_some {g : Global} {bs : Boxes} {s : Nat} {b : Box} (h : boxGet bs s = some b) :
    (view g bs).lookups s = lay b.lookups (g.lookups s) := by simp only [view, h]

theorem lay_empty {κ α : Type} (g : κ → Option α) : lay (fun _ => none) g = g := rfl

theorem fromClean_boxGood (g : Global) (D : Nat → Prop) (s : Nat) (m : Meta) (h : g.metas s = some m) :
    BoxGood g D s (.fromClean m) where
  info := by simp [Box.fromClean, Entry.fromClean]
  clean := fun _ => by rw [h]; rfl
  fresh := by simp [Box.fromClean, Entry.fromClean, h]
  idle := fun _ => h.symm
  storage := fun _ _ h => by cases h
  preimages := fun _ _ h => by cases h
  lookups := fun _ _ h => by cases h

theorem ite_self_fun {α : Type} (f : Nat → α) (s : Nat) :
    (fun s' => if s' = s then f s else f s') = f := by
  funext s'; by_cases c : s' = s <;> simp [c]

theorem ensure_view (g : Global) (bs : Boxes) (s : Nat) : view g (ensure g bs s) = view g bs := by
  unfold ensure
  cases h : boxGet bs s with
  | some b => rfl
  | none =>
    cases h2 : g.metas s with
    | none => rfl
    | some m =>
      simp only
      rw [view_set]
      have e1 : (view g bs).metas s = some m := by simp only [view, h, h2]
      have e2 : (view g bs).storage s = g.storage s := by simp only [view, h]
      have e3 : (view g bs).preimages s = g.preimages s := by simp only [view, h]
      have e4 : (view g bs).lookups s = g.lookups s := by simp only [view, h]
      apply Global.ext
      · show upd _ s (some m) = _; rw [← e1, upd_same]
      · show (fun s' => if s' = s then g.storage s else _) = _; rw [← e2, ite_self_fun]
      · show (fun s' => if s' = s then g.preimages s else _) = _; rw [← e3, ite_self_fun]
      · show (fun s' => if s' = s then g.lookups s else _) = _; rw [← e4, ite_self_fun]

theorem ensure_inv {g : Global} {D : Nat → Prop} {host : Nat} {bs : Boxes} (s : Nat) (H : Inv g D host bs) :
    Inv g D host (ensure g bs s) := by
  refine ⟨?_, H.own, by rw [ensure_view]; exact H.alive⟩
  unfold ensure
  cases h : boxGet bs s with
  | some b => exact H.boxes
  | none =>
    cases h2 : g.metas s with
    | none => exact H.boxes
    | some m =>
      intro s' b hb
      rw [boxGet_set] at hb
      by_cases c : s' = s
      · subst c; rw [if_pos rfl] at hb; cases hb; exact fromClean_boxGood g D s' m h2
      · rw [if_neg c] at hb; exact H.boxes s' b hb

/-- After `ensure` there is a box, or no account at all. -/
theorem ensure_none {g : Global} {bs : Boxes} {s : Nat} (h : boxGet (ensure g bs s) s = none) :
    boxGet bs s = none ∧ g.metas s = none := by
  unfold ensure at h
  cases h1 : boxGet bs s with
  | some b => simp [h1] at h
  | none =>
    cases h2 : g.metas s with
    | none => exact ⟨rfl, rfl⟩
    | some m => simp [h1, h2, boxGet_set] at h

theorem ensure_none_view {g : Global} {bs : Boxes} {s : Nat} (h : boxGet (ensure g bs s) s = none) :
    (view g bs).metas s = none := by
  obtain ⟨a, b⟩ := ensure_none h; simp only [view, a, b]

theorem ensure_none_subs {g : Global} (O : g.NoOrphans) {bs : Boxes} {s : Nat}
    (h : boxGet (ensure g bs s) s = none) :
    (∀ k, (view g bs).storage s k = none) ∧ (∀ k, (view g bs).preimages s k = none) ∧
    (∀ k, (view g bs).lookups s k = none) := by
  obtain ⟨a, b⟩ := ensure_none h
  simp only [view, a]; exact O s b

/-- Replacing a box by a good one whose metadata is alive when it is the running service's. -/
theorem set_inv {g : Global} {D : Nat → Prop} {host : Nat} {bs : Boxes} (H : Inv g D host bs) {s : Nat} {b : Box}
    (hb : BoxGood g D s b) (ha : s = host → b.info.value.isSome) : Inv g D host (boxSet bs s b) := by
  constructor
  · intro s' b' h
    rw [boxGet_set] at h
    by_cases c : s' = s
    · subst c; rw [if_pos rfl] at h; cases h; exact hb
    · rw [if_neg c] at h; exact H.boxes s' b' h
  · exact H.own
  · rw [view_set]; simp only [upd]
    by_cases c : host = s
    · rw [if_pos c]; exact ha c.symm
    · rw [if_neg c]; exact H.alive

/-! ## The operations -/

/-- Two stores agree after an operation: same answer, the sandbox still good. -/
def Sim (g : Global) (D : Nat → Prop) (host : Nat) (r : Boxes) (a : Global) : Prop := view g r = a ∧ Inv g D host r

def SimOpt (g : Global) (D : Nat → Prop) (host : Nat) : Option Boxes → Option Global → Prop
  | some r, some a => Sim g D host r a
  | none, none => True
  | _, _ => False

section ops
variable {g : Global} {D : Nat → Prop} {host : Nat} {bs : Boxes} (O : g.NoOrphans) (H : Inv g D host bs) (s : Nat)
include H

theorem info_sim : (getMeta g bs s).1 = (view g bs).metas s ∧ Sim g D host (getMeta g bs s).2 (view g bs) := by
  unfold getMeta
  simp only
  cases h : boxGet (ensure g bs s) s with
  | none => exact ⟨(ensure_none_view h).symm, ensure_view g bs s, ensure_inv s H⟩
  | some b =>
    refine ⟨?_, ensure_view g bs s, ensure_inv s H⟩
    rw [← ensure_view g bs s, view_metas_some h]

theorem existsEff_sim : existsEffective g bs s = ((view g bs).metas s).isSome := by
  unfold existsEffective
  simp only [view]
  cases h : boxGet bs s with
  | none => rfl
  | some b =>
    have := (H.boxes s b h).info
    cases hv : b.info.value with
    | none => simp [this.2 hv, hv]
    | some m =>
      have : b.info.status ≠ .removed := fun c => by rw [this.1 c] at hv; cases hv
      simp [this, hv]

theorem existsAct_sim : (existsActive g bs s).1 = ((view g bs).metas s).isSome ∧
    Sim g D host (existsActive g bs s).2 (view g bs) := by
  have e := existsEff_sim (ensure_inv s H) s
  rw [ensure_view] at e
  unfold existsEffective at e
  unfold existsActive
  simp only
  cases h : boxGet (ensure g bs s) s with
  | none =>
    refine ⟨?_, ensure_view g bs s, ensure_inv s H⟩
    rw [ensure_none_view h]; rfl
  | some b =>
    rw [h] at e
    exact ⟨e, ensure_view g bs s, ensure_inv s H⟩

/-- Rewriting the metadata of a live account of the running service or of a snapshot-keeping
status. -/
theorem modify_sim (f : Meta → Meta) (hs : s = host) :
    SimOpt g D host (modifyMeta g bs s f) (mapStore.modify (view g bs) s f) := by
  have H' := ensure_inv s H
  unfold modifyMeta mapStore
  simp only
  rw [← ensure_view g bs s]
  cases h : boxGet (ensure g bs s) s with
  | none =>
    have : (view g (ensure g bs s)).metas s = none := by rw [ensure_view]; exact ensure_none_view h
    rw [this]; trivial
  | some b =>
    have hv := view_metas_some (g := g) h
    have B := H'.boxes s b h
    cases hm : b.info.value with
    | none => simp only [hv, hm, Option.map_none]; trivial
    | some m =>
      simp only [hv, hm, Option.map_some, SimOpt]
      have key : ∀ e : Entry Meta, ({ e with value := some (f m) } : Entry Meta).markUpdated.value = some (f m) := by
        intro e; unfold Entry.markUpdated; split <;> rfl
      constructor
      · rw [view_set]
        apply Global.ext
        · simp only [key]
        · show (fun s' => if s' = s then lay b.storage (g.storage s) else _) = _
          rw [← view_storage_some h, ite_self_fun]
        · show (fun s' => if s' = s then lay b.preimages (g.preimages s) else _) = _
          rw [← view_preimages_some h, ite_self_fun]
        · show (fun s' => if s' = s then lay b.lookups (g.lookups s) else _) = _
          rw [← view_lookups_some h, ite_self_fun]
      · have nr : b.info.status ≠ .removed := fun c => by rw [B.info.1 c] at hm; cases hm
        refine set_inv H' ⟨?_, fun c => absurd (hs ▸ H.own) c, ?_, ?_, B.storage, B.preimages, B.lookups⟩ (fun _ => by simp only [key]; rfl)
        · simp only [key]
          unfold Entry.markUpdated
          split
          · exact ⟨(fun c => absurd c nr), (fun c => by cases c)⟩
          · exact ⟨(fun c => by cases c), (fun c => by cases c)⟩
        · unfold Entry.markUpdated
          split
          · exact B.fresh
          · rename_i c
            refine ⟨(fun c => by cases c), fun d => ?_⟩
            exact absurd (.inl (B.fresh.2 d)) c
        · unfold Entry.markUpdated
          split
          · rename_i c
            intro d
            rcases c with c | c
            · exact absurd (c.symm.trans d) (by decide)
            · exact absurd (c.symm.trans d) (by decide)
          · intro d; cases d

theorem footprints_sim (st lk : Delta) (hs : s = host) :
    SimOpt g D host (updateFootprints g bs s st lk) (mapStore.footprints (view g bs) s st lk) := by
  have M := modify_sim H s (fun m => (m.updateFootprints st lk).1) hs
  have H' := ensure_inv s H
  unfold modifyMeta mapStore at M
  unfold updateFootprints mapStore
  simp only at M ⊢
  cases h : boxGet (ensure g bs s) s with
  | none => rw [h] at M; exact M
  | some b =>
    rw [h] at M
    simp only at M ⊢
    cases hm : b.info.value with
    | none =>
      exfalso
      have := H'.alive
      rw [← hs, view_metas_some h, hm] at this
      cases this
    | some m =>
      rw [hm] at M
      simp only at M ⊢
      have hv : (view g bs).metas s = some m := by rw [← ensure_view g bs s, view_metas_some h, hm]
      cases hu : m.updateFootprints st lk with
      | mk m' t =>
        cases t with
        | true => rw [hu] at M; exact M
        | false =>
          have : m' = m := by
            unfold Meta.updateFootprints at hu
            simp only at hu
            split at hu
            · cases hu
            · cases hu; rfl
          subst this
          rw [hv]
          simp only [Option.map_some, hu]
          refine ⟨?_, H'⟩
          rw [ensure_view, ← hv, upd_same]

section sub
omit H
/-- Replacing only the storage map of a box. -/
theorem setS_sim {b : Box} (H : Inv g D host bs) (h : boxGet bs s = some b) (m : Bytes → Option (Entry Bytes)) (hm : MapGood m (g.storage s)) :
    Sim g D host (boxSet bs s { b with storage := m })
      { view g bs with storage := fun s' => if s' = s then lay m (g.storage s) else (view g bs).storage s' } := by
  have B := H.boxes s b h
  constructor
  · rw [view_set]
    apply Global.ext
    · show upd _ s b.info.value = _; rw [← view_metas_some (g := g) h, upd_same]
    · rfl
    · show (fun s' => if s' = s then lay b.preimages (g.preimages s) else _) = _
      rw [← view_preimages_some h, ite_self_fun]
    · show (fun s' => if s' = s then lay b.lookups (g.lookups s) else _) = _
      rw [← view_lookups_some h, ite_self_fun]
  · refine set_inv H ⟨B.info, B.clean, B.fresh, B.idle, hm, B.preimages, B.lookups⟩ (fun c => ?_)
    rw [← view_metas_some (g := g) h, c]; exact H.alive

theorem setP_sim {b : Box} (H : Inv g D host bs) (h : boxGet bs s = some b) (m : Bytes → Option (Entry Bytes)) (hm : MapGood m (g.preimages s)) :
    Sim g D host (boxSet bs s { b with preimages := m })
      { view g bs with preimages := fun s' => if s' = s then lay m (g.preimages s) else (view g bs).preimages s' } := by
  have B := H.boxes s b h
  constructor
  · rw [view_set]
    apply Global.ext
    · show upd _ s b.info.value = _; rw [← view_metas_some (g := g) h, upd_same]
    · show (fun s' => if s' = s then lay b.storage (g.storage s) else _) = _
      rw [← view_storage_some h, ite_self_fun]
    · rfl
    · show (fun s' => if s' = s then lay b.lookups (g.lookups s) else _) = _
      rw [← view_lookups_some h, ite_self_fun]
  · refine set_inv H ⟨B.info, B.clean, B.fresh, B.idle, B.storage, hm, B.lookups⟩ (fun c => ?_)
    rw [← view_metas_some (g := g) h, c]; exact H.alive

theorem setL_sim {b : Box} (H : Inv g D host bs) (h : boxGet bs s = some b) (m : LKey → Option (Entry (List Nat))) (hm : MapGood m (g.lookups s)) :
    Sim g D host (boxSet bs s { b with lookups := m })
      { view g bs with lookups := fun s' => if s' = s then lay m (g.lookups s) else (view g bs).lookups s' } := by
  have B := H.boxes s b h
  constructor
  · rw [view_set]
    apply Global.ext
    · show upd _ s b.info.value = _; rw [← view_metas_some (g := g) h, upd_same]
    · show (fun s' => if s' = s then lay b.storage (g.storage s) else _) = _
      rw [← view_storage_some h, ite_self_fun]
    · show (fun s' => if s' = s then lay b.preimages (g.preimages s) else _) = _
      rw [← view_preimages_some h, ite_self_fun]
    · rfl
  · refine set_inv H ⟨B.info, B.clean, B.fresh, B.idle, B.storage, B.preimages, hm⟩ (fun c => ?_)
    rw [← view_metas_some (g := g) h, c]; exact H.alive
end sub

include O

theorem getS_sim (k : Bytes) : (getStorage g bs s k).1 = (view g bs).storage s k ∧
    Sim g D host (getStorage g bs s k).2 (view g bs) := by
  have H' := ensure_inv s H
  unfold getStorage
  simp only
  cases h : boxGet (ensure g bs s) s with
  | none => exact ⟨((ensure_none_subs O h).1 k).symm, ensure_view g bs s, H'⟩
  | some b =>
    simp only [getEntry_eq]
    have T := setS_sim s H' h _ (loadEntry_good _ _ k (H'.boxes s b h).storage)
    rw [loadEntry_lay, ← view_storage_some h, ite_self_fun, ensure_view] at T
    refine ⟨?_, T⟩
    rw [← ensure_view g bs s, view_storage_some h]

theorem getP_sim (k : Bytes) : (getPreimage g bs s k).1 = (view g bs).preimages s k ∧
    Sim g D host (getPreimage g bs s k).2 (view g bs) := by
  have H' := ensure_inv s H
  unfold getPreimage
  simp only
  cases h : boxGet (ensure g bs s) s with
  | none => exact ⟨((ensure_none_subs O h).2.1 k).symm, ensure_view g bs s, H'⟩
  | some b =>
    simp only [getEntry_eq]
    have T := setP_sim s H' h _ (loadEntry_good _ _ k (H'.boxes s b h).preimages)
    rw [loadEntry_lay, ← view_preimages_some h, ite_self_fun, ensure_view] at T
    refine ⟨?_, T⟩
    rw [← ensure_view g bs s, view_preimages_some h]

theorem getL_sim (k : LKey) : (getLookup g bs s k).1 = (view g bs).lookups s k ∧
    Sim g D host (getLookup g bs s k).2 (view g bs) := by
  have H' := ensure_inv s H
  unfold getLookup
  simp only
  cases h : boxGet (ensure g bs s) s with
  | none => exact ⟨((ensure_none_subs O h).2.2 k).symm, ensure_view g bs s, H'⟩
  | some b =>
    simp only [getEntry_eq]
    have T := setL_sim s H' h _ (loadEntry_good _ _ k (H'.boxes s b h).lookups)
    rw [loadEntry_lay, ← view_lookups_some h, ite_self_fun, ensure_view] at T
    refine ⟨?_, T⟩
    rw [← ensure_view g bs s, view_lookups_some h]

theorem remS_sim (k : Bytes) : Sim g D host (removeStorage g bs s k) (mapStore.remS (view g bs) s k) := by
  have H' := ensure_inv s H
  unfold removeStorage mapStore
  simp only
  cases h : boxGet (ensure g bs s) s with
  | none =>
    refine ⟨?_, H'⟩
    rw [ensure_view, ← (ensure_none_subs O h).1 k, upd2_same]
  | some b =>
    have T := setS_sim s H' h _ (removeEntry_good _ _ k (H'.boxes s b h).storage)
    rw [removeEntry_lay _ _ _ (H'.boxes s b h).storage, ← view_storage_some h, ensure_view] at T
    exact T

theorem remP_sim (k : Bytes) : Sim g D host (removePreimage g bs s k) (mapStore.remP (view g bs) s k) := by
  have H' := ensure_inv s H
  unfold removePreimage mapStore
  simp only
  cases h : boxGet (ensure g bs s) s with
  | none =>
    refine ⟨?_, H'⟩
    rw [ensure_view, ← (ensure_none_subs O h).2.1 k, upd2_same]
  | some b =>
    have T := setP_sim s H' h _ (removeEntry_good _ _ k (H'.boxes s b h).preimages)
    rw [removeEntry_lay _ _ _ (H'.boxes s b h).preimages, ← view_preimages_some h, ensure_view] at T
    exact T

theorem remL_sim (k : LKey) : Sim g D host (removeLookup g bs s k) (mapStore.remL (view g bs) s k) := by
  have H' := ensure_inv s H
  unfold removeLookup mapStore
  simp only
  cases h : boxGet (ensure g bs s) s with
  | none =>
    refine ⟨?_, H'⟩
    rw [ensure_view, ← (ensure_none_subs O h).2.2 k, upd2_same]
  | some b =>
    have T := setL_sim s H' h _ (removeEntry_good _ _ k (H'.boxes s b h).lookups)
    rw [removeEntry_lay _ _ _ (H'.boxes s b h).lookups, ← view_lookups_some h, ensure_view] at T
    exact T

omit O

theorem insS_sim (k v : Bytes) (ha : ((view g bs).metas s).isSome) :
    SimOpt g D host (insertStorage g bs s k v) (mapStore.insS (view g bs) s k v) := by
  have H' := ensure_inv s H
  obtain ⟨m, hm⟩ := Option.isSome_iff_exists.1 ha
  unfold insertStorage mapStore
  simp only [hm]
  cases h : boxGet (ensure g bs s) s with
  | none => rw [ensure_none_view h] at hm; cases hm
  | some b =>
    have T := setS_sim s H' h _ (insertEntry_good _ _ k (H'.boxes s b h).storage v)
    rw [insertEntry_lay _ _ _ (H'.boxes s b h).storage, ← view_storage_some h, ensure_view] at T
    exact T

theorem insL_sim (k : LKey) (v : List Nat) (ha : ((view g bs).metas s).isSome) :
    SimOpt g D host (insertLookup g bs s k v) (mapStore.insL (view g bs) s k v) := by
  have H' := ensure_inv s H
  obtain ⟨m, hm⟩ := Option.isSome_iff_exists.1 ha
  unfold insertLookup mapStore
  simp only [hm]
  cases h : boxGet (ensure g bs s) s with
  | none => rw [ensure_none_view h] at hm; cases hm
  | some b =>
    have T := setL_sim s H' h _ (insertEntry_good _ _ k (H'.boxes s b h).lookups v)
    rw [insertEntry_lay _ _ _ (H'.boxes s b h).lookups, ← view_lookups_some h, ensure_view] at T
    exact T

include O

/-- A new account under an identifier that is free in the committed state. -/
theorem create_sim (m : Meta) (hf : g.metas s = none) :
    Sim g D host (boxSet bs s (newBox m)) (mapStore.create (view g bs) s m) := by
  obtain ⟨o1, o2, o3⟩ := O s hf
  constructor
  · rw [view_set]
    unfold mapStore
    apply Global.ext
    · rfl
    · funext s'; simp only [clear, newBox, lay_empty]
      by_cases c : s' = s
      · simp only [c, if_true]; funext k; exact o1 k
      · simp only [c, if_false]
    · funext s'; simp only [clear, newBox, lay_empty]
      by_cases c : s' = s
      · simp only [c, if_true]; funext k; exact o2 k
      · simp only [c, if_false]
    · funext s'; simp only [clear, newBox, lay_empty]
      by_cases c : s' = s
      · simp only [c, if_true]; funext k; exact o3 k
      · simp only [c, if_false]
  · refine set_inv H ⟨?_, fun _ => ?_, ?_, ?_, (fun _ _ h => by cases h), (fun _ _ h => by cases h), (fun _ _ h => by cases h)⟩ (fun _ => rfl)
    · simp [newBox, Entry.newAdded]
    · rw [hf]; rfl
    · simp [newBox, Entry.newAdded, hf]
    · simp [newBox, Entry.newAdded]

theorem eject_sim (k : LKey) (hs : s ≠ host) (hD : ¬ D s) (ht : (view g bs).OnlyRequest s k) :
    SimOpt g D host (ejectAccount g bs s k) (mapStore.eject (view g bs) s k) := by
  obtain ⟨e1, e2⟩ := info_sim H s
  unfold ejectAccount
  cases hg : getMeta g bs s with
  | mk r bs1 =>
    rw [hg] at e1 e2
    simp only at e1 e2
    cases r with
    | none => simp only [mapStore, ← e1, Option.map_none]; trivial
    | some m =>
      simp only [mapStore, ← e1, Option.map_some]
      obtain ⟨v1, H1⟩ := e2
      unfold getMetaClean
      simp only
      have H1' := ensure_inv s H1
      cases hb : boxGet (ensure g bs1 s) s with
      | none =>
        have := ensure_none_view hb
        rw [v1, ← e1] at this; cases this
      | some b =>
        have B := H1'.boxes s b hb
        have hc : (if b.info.status = .clean then b.info.value else b.info.snap) = g.metas s := B.clean hD
        simp only [hc]
        have v1' : view g (ensure g bs1 s) = view g bs := by rw [ensure_view, v1]
        cases hgm : g.metas s with
        | none =>
          obtain ⟨o1, o2, o3⟩ := O s hgm
          simp only
          have hview : view g (boxErase (ensure g bs1 s) s) =
              { metas := upd (view g bs).metas s none, storage := clear (view g bs).storage s,
                preimages := clear (view g bs).preimages s, lookups := clear (view g bs).lookups s } := by
            rw [← v1']
            apply Global.ext
            · funext s'; simp only [view, boxGet_erase, upd]
              by_cases c : s' = s <;> simp [c, hgm]
            · funext s'; simp only [view, boxGet_erase, clear]
              by_cases c : s' = s
              · simp only [c, if_true]; funext k'; exact o1 k'
              · simp only [c, if_false]
            · funext s'; simp only [view, boxGet_erase, clear]
              by_cases c : s' = s
              · simp only [c, if_true]; funext k'; exact o2 k'
              · simp only [c, if_false]
            · funext s'; simp only [view, boxGet_erase, clear]
              by_cases c : s' = s
              · simp only [c, if_true]; funext k'; exact o3 k'
              · simp only [c, if_false]
          refine ⟨hview, ?_, H.own, ?_⟩
          · intro s' b' h'
            rw [boxGet_erase] at h'
            by_cases c : s' = s
            · rw [if_pos c] at h'; cases h'
            · rw [if_neg c] at h'; exact H1'.boxes s' b' h'
          · rw [hview]; simp only [upd]
            rw [if_neg (fun c => hs c.symm)]; exact H.alive
        | some c =>
          simp only
          obtain ⟨p1, P1⟩ := remP_sim O H1' s k.1
          obtain ⟨l1, L1⟩ := remL_sim O P1 s k
          rw [p1, v1'] at l1
          have L1' := ensure_inv s L1
          have l1' : view g (ensure g (removeLookup g (removePreimage g (ensure g bs1 s) s k.1) s k) s) =
              mapStore.remL (mapStore.remP (view g bs) s k.1) s k := by rw [ensure_view, l1]
          generalize hE : ensure g (removeLookup g (removePreimage g (ensure g bs1 s) s k.1) s k) s = E at l1' L1'
          cases hb2 : boxGet E s with
          | none =>
            exfalso
            have h3 : (view g E).metas s = some m := by rw [l1']; exact e1.symm
            rw [← hE] at hb2
            have h4 := ensure_none_view hb2
            rw [← ensure_view g _ s, hE, h3] at h4
            cases h4
          | some b2 =>
            simp only
            have B2 := L1'.boxes s b2 hb2
            have tS := view_storage_some (g := g) hb2
            have tP := view_preimages_some (g := g) hb2
            have tL := view_lookups_some (g := g) hb2
            rw [l1'] at tS tP tL
            refine ⟨?_, set_inv L1' ⟨?_, ?_, ?_, ?_, B2.storage, B2.preimages, B2.lookups⟩ (fun c => absurd c hs)⟩
            · rw [view_set]
              simp only [← tS, ← tP, ← tL, l1']
              apply Global.ext
              · rfl
              · funext s'; simp only [clear]
                by_cases c : s' = s
                · simp only [c, if_true, mapStore]; funext k'; exact ht.1 k'
                · simp only [c, if_false]; rfl
              · funext s'; simp only [clear]
                by_cases c : s' = s
                · simp only [c, if_true, mapStore, upd2]; funext k'
                  simp only [upd]; by_cases d : k' = k.1
                  · simp [d]
                  · simp only [d, if_false]; exact ht.2.1 k' d
                · simp only [c, if_false, mapStore, upd2]
              · funext s'; simp only [clear]
                by_cases c : s' = s
                · simp only [c, if_true, mapStore, upd2]; funext k'
                  simp only [upd]; by_cases d : k' = k
                  · simp [d]
                  · simp only [d, if_false]; exact ht.2.2 k' d
                · simp only [c, if_false, mapStore, upd2]
            · simp [Entry.newRemoved]
            · intro _; rw [hgm]; rfl
            · simp [Entry.newRemoved, hgm]
            · simp [Entry.newRemoved]
end ops
end Fastroll.Svc
